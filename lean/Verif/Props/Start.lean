/-
C155, C156: the broker as it is delivered, and the configuration file of the command line.
-/
import Verif.Spec.Start
import Verif.Props.Settings

namespace Ratel

open Spec Sys Config

/-! ### Names of files -/

theorem takeWhile_notin {p : Char → Bool} {a b : List Char} {c : Char} (ha : ∀ x ∈ a, p x = true) (hc : p c = false) :
    (a ++ c :: b).takeWhile p = a ∧ (a ++ c :: b).dropWhile p = c :: b := by
  induction a with
  | nil => simp [hc]
  | cons x a ih =>
    have hx := ha x List.mem_cons_self
    obtain ⟨h1, h2⟩ := ih fun y hy => ha y (List.mem_cons_of_mem _ hy)
    simp [hx, h1, h2]

theorem takeWhile_notin_all {p : Char → Bool} {a : List Char} (ha : ∀ x ∈ a, p x = true) : a.takeWhile p = a ∧ a.dropWhile p = [] := by
  induction a with
  | nil => simp
  | cons x a ih =>
    have hx := ha x List.mem_cons_self
    obtain ⟨h1, h2⟩ := ih fun y hy => ha y (List.mem_cons_of_mem _ hy)
    simp [hx, h1, h2]

theorem tomlName_named {name dir stem ext : String} (h : Named name dir stem ext) :
    (tomlName name).toList = dir.toList ++ stem.toList ++ ".toml".toList := by
  obtain ⟨hn, hd, ⟨hs, hs'⟩, he, he', he''⟩ := h
  have hs0 : stem.toList ≠ [] := fun h0 => hs (String.toList_eq_nil_iff.mp h0)
  have he0 : ext.toList ≠ [] := fun h0 => he (String.toList_eq_nil_iff.mp h0)
  have hrev : name.toList.reverse = (ext.toList.reverse ++ '.' :: stem.toList.reverse) ++ dir.toList.reverse := by
    rw [hn]; simp
  have hbase : ∀ x ∈ ext.toList.reverse ++ '.' :: stem.toList.reverse, decide (x ≠ '/') = true := by
    intro x hx
    rcases List.mem_append.mp hx with hx | hx
    · exact decide_eq_true fun h0 => he' (by rw [← h0]; exact List.mem_reverse.mp hx)
    · rcases List.mem_cons.mp hx with rfl | hx
      · decide
      · exact decide_eq_true fun h0 => hs' (by rw [← h0]; exact List.mem_reverse.mp hx)
  have hsplit : (name.toList.reverse).takeWhile (· ≠ '/') = ext.toList.reverse ++ '.' :: stem.toList.reverse
      ∧ (name.toList.reverse).dropWhile (· ≠ '/') = dir.toList.reverse := by
    rw [hrev]
    rcases hd with rfl | ⟨d, hd⟩
    · simpa using takeWhile_notin_all hbase
    · rw [hd, List.reverse_append]
      exact takeWhile_notin hbase (by decide)
  have hdot : ∀ x ∈ ext.toList.reverse, decide (x ≠ '.') = true := fun x hx => by
    simp only [ne_eq, decide_not, Bool.not_eq_eq_eq_not, Bool.not_true, decide_eq_false_iff_not]
    exact fun h0 => he'' (by rw [← h0]; exact List.mem_reverse.mp hx)
  have hdrop : (ext.toList.reverse ++ '.' :: stem.toList.reverse).dropWhile (· ≠ '.') = '.' :: stem.toList.reverse :=
    (takeWhile_notin hdot (by decide)).2
  have hnot : ¬ (ext.toList.reverse ++ '.' :: stem.toList.reverse = [] ∨ ext.toList.reverse ++ '.' :: stem.toList.reverse = ['.']
      ∨ ext.toList.reverse ++ '.' :: stem.toList.reverse = ['.', '.']) := by
    cases hr : ext.toList.reverse with
    | nil => exact absurd (List.reverse_eq_nil_iff.mp hr) he0
    | cons a l =>
      have ha : a ≠ '.' := fun h0 => he'' (by rw [← List.mem_reverse, hr, h0]; exact List.mem_cons_self)
      rintro (h | h | h) <;> simp_all
  unfold tomlName
  simp only [hsplit.1, hsplit.2]
  rw [if_neg hnot, hdrop]
  cases hst : stem.toList.reverse with
  | nil => exact absurd (List.reverse_eq_nil_iff.mp hst) hs0
  | cons c l =>
    simp only [String.toList_ofList, List.reverse_reverse]
    rw [← hst, List.reverse_reverse]

/-! ### C156 -/

theorem not_present {d : Disk} {name : String} (h : ¬ Present d name) : d.isFile name = false := by
  unfold Disk.isFile
  cases hd : d name with
  | absent => rfl
  | directory => rfl
  | unreadable => exact absurd ⟨by rw [hd]; simp, by rw [hd]; simp⟩ h
  | text _ => exact absurd ⟨by rw [hd]; simp, by rw [hd]; simp⟩ h

/-- C156, the part that holds: if there is a file of the name given on the command line (or of the default name), it is the one that is
read, and the broker does not start if it cannot be read; and if the name ends with `.toml` nothing else is ever read: without such a file
the broker does not start. Missing: other names. -/
theorem C156_named_partial (toml : List Char → Option Value) (d : Disk) (name : String) :
    (∀ text, d name = .text text → loadFile toml d name = toml text)
    ∧ ((d name = .unreadable ∨ ¬ Present d name ∧ ∃ dir stem, Named name dir stem "toml") → loadFile toml d name = none
      ∧ ∀ sv hs env peers order dotfile vars, Boot.main sv hs env peers order toml d (some name) dotfile vars = none) := by
  refine ⟨fun text h => by simp [loadFile, findFile, Disk.isFile, Disk.readToString, h], fun h => ?_⟩
  have hl : loadFile toml d name = none := by
    rcases h with h | ⟨h, dir, stem, hn⟩
    · simp [loadFile, findFile, Disk.isFile, Disk.readToString, h]
    · have ht : tomlName name = name := by
        apply String.toList_inj.mp
        rw [tomlName_named hn, hn.name]
        rfl
      simp [loadFile, findFile, not_present h, ht]
  refine ⟨hl, fun sv hs env peers order dotfile vars => ?_⟩
  simp [Boot.main, Boot.start, fileName, hl, settings, Boot.launch]

/-- C156 is violated: if there is no file of the name given on the command line, but one with the extension `toml` instead of that of the
name, then without any error the broker does what it would do with that file. -/
theorem C156_other_file_fails (toml : List Char → Option Value) (d : Disk) (name other dir stem ext : String)
    (hn : Named name dir stem ext) (ho : Named other dir stem "toml") (hno : ¬ Present d name) :
    ∀ sv hs env peers order dotfile vars,
      Boot.main sv hs env peers order toml d (some name) dotfile vars = Boot.main sv hs env peers order toml d (some other) dotfile vars := by
  intro sv hs env peers order dotfile vars
  have hno := not_present hno
  have ht : tomlName name = other := by
    apply String.toList_inj.mp
    rw [tomlName_named hn, ho.name]
    rfl
  have ht' : tomlName other = other := by
    apply String.toList_inj.mp
    rw [tomlName_named ho, ho.name]
    rfl
  have : findFile d name = findFile d other := by
    simp only [findFile, hno, ht, ht']
    cases d.isFile other <;> simp
  simp only [Boot.main, fileName, Option.getD_some, loadFile, this]

theorem default_named : Named "/etc/ratelmq/ratelmq.conf" "/etc/ratelmq/" "ratelmq" "conf" where
  name := by decide +kernel
  dir := .inr ⟨"/etc/ratelmq".toList, by decide +kernel⟩
  stem := by decide +kernel
  ext := by decide +kernel

theorem toml_named : Named "/etc/ratelmq/ratelmq.toml" "/etc/ratelmq/" "ratelmq" "toml" where
  name := by decide +kernel
  dir := .inr ⟨"/etc/ratelmq".toList, by decide +kernel⟩
  stem := by decide +kernel
  ext := by decide +kernel

-- the default name, when there is only /etc/ratelmq/ratelmq.toml
example (toml : List Char → Option Value) (d : Disk) (h : d "/etc/ratelmq/ratelmq.conf" = .absent) : ∀ sv hs env peers order dotfile vars,
    Boot.main sv hs env peers order toml d (some "/etc/ratelmq/ratelmq.conf") dotfile vars
      = Boot.main sv hs env peers order toml d (some "/etc/ratelmq/ratelmq.toml") dotfile vars :=
  C156_other_file_fails toml d _ _ _ _ _ default_named toml_named (by simp [Present, h])

-- a file that is not there, and nothing else to take
example (toml : List Char → Option Value) : loadFile toml (fun _ => .absent) "/etc/ratelmq/ratelmq.toml" = none :=
  ((C156_named_partial toml (fun _ => .absent) _).2 (.inr ⟨by simp [Present], _, _, toml_named⟩)).1

/-! ### C155 -/

theorem image_file {d : Disk} {added : List String} (h : Image d added) (hconf : "/etc/ratelmq/ratelmq.conf" ∉ added)
    {toml : List Char → Option Value} (ht : toml shippedText = some shippedTable) : loadFile toml d (fileName none) = some shippedTable := by
  have h1 : d "/etc/ratelmq/ratelmq.conf" = .absent := h.2 _ ⟨"ratelmq.conf".toList, by decide +kernel⟩ (by decide) hconf
  have h2 : tomlName "/etc/ratelmq/ratelmq.conf" = "/etc/ratelmq/ratelmq.toml" := by decide +kernel
  simp [loadFile, fileName, findFile, Disk.isFile, h1, h2, h.1, Disk.readToString, ht]

/-- C155, the part that holds: the image of the Dockerfile, started as the README says, with any files added but a
`/etc/ratelmq/ratelmq.conf`, and with an environment that is Unicode and sets nothing of the broker but, perhaps, the password file, gets as
far as opening its port exactly if there is a password file, readable and with a ':' in each line, under `/etc/ratelmq/passwd` or where the
environment says; and it is port 1883 of all interfaces that it opens. Missing: that there is such a file. -/
theorem C155_image_partial (sv : StdVersion) (hs : Hashing) (env : Env) (peers : ConnId → Peer) (order : HashOrder)
    (toml : List Char → Option Value) (ht : toml shippedText = some shippedTable) (d : Disk) (added : List String) (hd : Image d added)
    (hconf : "/etc/ratelmq/ratelmq.conf" ∉ added) (dotfile : List (String × String)) (vars : List Var)
    (hu : ∀ v ∈ dotenv vars dotfile, v.name ≠ none ∧ v.value ≠ none)
    (hc : ∀ n x, ⟨some n, some x⟩ ∈ dotenv vars dotfile → Concerns n → IsVariable n "AUTHENTICATION" "PASSWORD_FILE")
    (passwords : String) (hp : PasswordsAt (dotenv vars dotfile) "/etc/ratelmq/passwd" passwords) :
    ((∃ env' b, Boot.main sv hs env peers order toml d none dotfile vars = some (env', b)) ↔
      ∃ text ls, d passwords = .text text ∧ FileLines sv text ls ∧ ∀ l ∈ ls, ':' ∈ l)
    ∧ ∀ env' b, Boot.main sv hs env peers order toml d none dotfile vars = some (env', b) →
      b.rest = ["0.0.0.0:1883"] ∧ b.proc.listeners = [] ∧ b.proc.sys = init peers ∧ b.proc.main = .serving := by
  obtain ⟨s, hset, hlist⟩ := C129_loads order shippedTable (dotenv vars dotfile) [.scalar "0.0.0.0:1883"] ["0.0.0.0:1883"] rfl rfl
    (.inl ⟨_, rfl⟩) hu hc
  have hpw : s.passwordFile = passwords := by
    rcases hp with ⟨n, hn, hvar, huniq⟩ | ⟨hno, rfl⟩
    · obtain ⟨n', x, hn', hvar', rfl⟩ := C129_variable order _ _ s hset ⟨n, passwords, hn, hvar⟩
      exact huniq n' _ hn' hvar'
    · obtain ⟨f, hf, hl⟩ := C129_file order _ _ s hset hno
      cases hf
      have h' : shippedTable.lookup ["authentication", "password_file"] = some (.scalar "/etc/ratelmq/passwd") := rfl
      rw [h'] at hl
      injection hl with hl
      injection hl with hl
      exact hl.symm
  have hread : ∀ name text, d.readToString name = some text ↔ d name = .text text := by
    intro name text
    unfold Disk.readToString
    cases d name <;> simp
  obtain ⟨h1, h2⟩ := C116_launch sv hs env peers (settings order (loadFile toml d (fileName none)) (dotenv vars dotfile)) d.readToString
  rw [image_file hd hconf ht, hset] at h1 h2
  have hmain : Boot.main sv hs env peers order toml d none dotfile vars = Boot.launch sv hs env peers (some s) d.readToString := by
    rw [Boot.main, Boot.start, image_file hd hconf ht, hset]
  rw [hmain]
  constructor
  · rw [h1]
    constructor
    · rintro ⟨s', text, ls, he, hr, hl⟩
      cases he
      rw [hpw, hread] at hr
      exact ⟨text, ls, hr, hl⟩
    · rintro ⟨text, ls, hr, hl⟩
      exact ⟨s, text, ls, rfl, by rw [hpw, hread]; exact hr, hl⟩
  · intro env' b hb
    obtain ⟨s', he, g1, g2, _, g3, _, g4⟩ := h2 env' b hb
    cases he
    exact ⟨g1.trans hlist, g2, g3, g4⟩

/-- C155 is violated: the image that the Dockerfile makes, started as the README says (`docker run … ratelmq/ratelmq:main`: nothing added, no
option, no variable for the password file), does not come up: the main task panics before it opens a port, whatever else the environment and
the file system hold. -/
theorem C155_image_fails (sv : StdVersion) (hs : Hashing) (env : Env) (peers : ConnId → Peer) (order : HashOrder)
    (toml : List Char → Option Value) (ht : toml shippedText = some shippedTable) (d : Disk) (hd : Image d []) (vars : List Var)
    (hv : ∀ n x, ⟨some n, some x⟩ ∈ vars → ¬ IsVariable n "AUTHENTICATION" "PASSWORD_FILE") :
    Boot.main sv hs env peers order toml d none [] vars = none := by
  have habs : d "/etc/ratelmq/passwd" = .absent := hd.2 _ ⟨"passwd".toList, by decide +kernel⟩ (by decide) (by simp)
  rw [Boot.main, Boot.start, image_file hd (by simp) ht]
  change Boot.launch sv hs env peers (settings order (some shippedTable) vars) d.readToString = none
  cases hset : settings order (some shippedTable) vars with
  | none => rfl
  | some s =>
    obtain ⟨f, hf, hl⟩ := C129_file order _ _ s hset hv
    cases hf
    have h' : shippedTable.lookup ["authentication", "password_file"] = some (.scalar "/etc/ratelmq/passwd") := rfl
    rw [h'] at hl
    have hpw : s.passwordFile = "/etc/ratelmq/passwd" := by
      injection hl with hl
      injection hl with hl
      exact hl.symm
    simp [Boot.launch, hpw, Disk.readToString, habs]

/-- A parser good enough for the text at hand. -/
def shippedToml (t : List Char) : Option Value := if t = shippedText then some shippedTable else none

/-- The file system of the image. -/
def imageDisk : Disk := fun name => if name = "/etc/ratelmq/ratelmq.toml" then .text shippedText else .absent

theorem imageDisk_image : Image imageDisk [] := ⟨rfl, fun name _ hne _ => by simp [imageDisk, hne]⟩

-- the image does not start
example (sv : StdVersion) (hs : Hashing) (order : HashOrder) :
    Boot.main sv hs exampleEnv examplePeers order shippedToml imageDisk none [] [⟨some "RUST_LOG", some "INFO"⟩] = none :=
  C155_image_fails sv hs exampleEnv examplePeers order shippedToml (by simp [shippedToml]) imageDisk imageDisk_image _ (by
    intro n x hn hvar
    cases List.mem_singleton.mp hn
    revert hvar
    unfold IsVariable SameText
    decide +kernel)

-- it does with an empty password file added
example (sv : StdVersion) (hs : Hashing) (order : HashOrder) : ∃ env' b,
    Boot.main sv hs exampleEnv examplePeers order shippedToml (fun n => if n = "/etc/ratelmq/passwd" then .text [] else imageDisk n) none []
      [⟨some "RUST_LOG", some "INFO"⟩] = some (env', b) := by
  have hno : ¬ Concerns "RUST_LOG" := by
    unfold Concerns BeginsWith
    decide +kernel
  refine (C155_image_partial sv hs exampleEnv examplePeers order shippedToml (by simp [shippedToml]) _ ["/etc/ratelmq/passwd"]
    ⟨rfl, fun name _ hne ha => ?_⟩ (by decide) [] [⟨some "RUST_LOG", some "INFO"⟩] ?_ ?_ "/etc/ratelmq/passwd" (.inr ⟨?_, rfl⟩)).1.mpr ?_
  · rw [if_neg (by simpa using ha)]
    simp [imageDisk, hne]
  · intro v hv
    cases List.mem_singleton.mp hv
    simp
  · intro n x hn hcon
    cases List.mem_singleton.mp hn
    exact absurd hcon hno
  · intro n x hn hvar
    cases List.mem_singleton.mp hn
    revert hvar
    unfold IsVariable SameText
    decide +kernel
  · obtain ⟨ls, hl, _⟩ := C56_lines sv []
    refine ⟨[], ls, rfl, hl, ?_⟩
    have := (C56_accepted sv [] ls hl).mp (by cases sv; rfl)
    exact this

end Ratel
