/-
ratelmq-passwd/src/main.rs. Text is handled as lists of characters.
-/

namespace Ratel.Passwd

/-- Case-insensitive comparison of a pattern character with a text character (`RegexBuilder::case_insensitive(true)`,
main.rs:30: Unicode simple case folding). A parameter; theorems say what they need of it. -/
abbrev CaseEq := Char → Char → Bool

/-- Match the escaped user name (`regex::escape`, main.rs:28) at the beginning of the text: matched part and rest. -/
def matchName (ci : CaseEq) : List Char → List Char → Option (List Char × List Char)
  | [], t => some ([], t)
  | _ :: _, [] => none
  | p :: ps, c :: cs =>
    if ci p c then
      match matchName ci ps cs with
      | some (m, r) => some (c :: m, r)
      | none => none
    else none

/-- Match `.*\n` (main.rs:28): everything up to and including the next line feed. -/
def matchLine : List Char → Option (List Char × List Char)
  | [] => none
  | c :: cs =>
    if c = '\n' then some (['\n'], cs)
    else match matchLine cs with
      | some (m, r) => some (c :: m, r)
      | none => none

/-- Match the whole regular expression `<user>:.*\n` (main.rs:28) at the beginning of the text. The expression is not anchored;
`multi_line` (main.rs:31) only affects `^` and `$`, which do not occur. -/
def matchEntry (ci : CaseEq) (user text : List Char) : Option (List Char × List Char) :=
  match matchName ci user text with
  | some (m, ':' :: r) =>
    match matchLine r with
    | some (l, rest) => some (m ++ ':' :: l, rest)
    | none => none
  | _ => none

/-- Leftmost match: text before, matched text, text after. -/
def search (ci : CaseEq) (user : List Char) : List Char → Option (List Char × List Char × List Char)
  | [] =>
    match matchEntry ci user [] with
    | some (m, post) => some ([], m, post)
    | none => none
  | c :: cs =>
    match matchEntry ci user (c :: cs) with
    | some (m, post) => some ([], m, post)
    | none =>
      match search ci user cs with
      | some (pre, m, post) => some (c :: pre, m, post)
      | none => none

/-- `regexp.is_match(credentials)` (main.rs:37). -/
def isMatch (ci : CaseEq) (user text : List Char) : Bool := (search ci user text).isSome

/-- Characters of an unbraced capture-group name in a replacement string of the `regex` crate. -/
def isCaptureChar (c : Char) : Bool := c.isAlphanum || c = '_'

/-- A capture reference after `$` in a replacement string: name and rest; `none` if there is none. -/
def captureRef : List Char → Option (List Char × List Char)
  | '{' :: r =>
    match r.dropWhile (· ≠ '}') with
    | '}' :: rest => some (r.takeWhile (· ≠ '}'), rest)
    | _ => none
  | r => if r.takeWhile isCaptureChar = [] then none else some (r.takeWhile isCaptureChar, r.dropWhile isCaptureChar)

theorem captureRef_length {r name rest : List Char} (h : captureRef r = some (name, rest)) : rest.length ≤ r.length := by
  unfold captureRef at h
  split at h
  · rename_i r'
    split at h
    · rename_i rest' h'
      cases h
      have := (List.dropWhile_sublist (l := r') (fun x => decide (x ≠ '}'))).length_le
      rw [h'] at this
      simp at this ⊢
      omega
    · cases h
  · split at h
    · cases h
    · cases h
      exact (List.dropWhile_sublist _).length_le

/-- Value of a capture group: group 0 is the whole match, there are no others. -/
def group (matched name : List Char) : List Char :=
  if name ≠ [] ∧ name.all (· = '0') then matched else []

/-- Expansion of a replacement string by `Regex::replace` (`regex` crate, `expand_str`): `$$` is a dollar sign, `$name` a capture. -/
def expand (matched : List Char) : List Char → List Char
  | [] => []
  | '$' :: '$' :: r => '$' :: expand matched r
  | '$' :: r =>
    match _h : captureRef r with
    | some (name, rest) => group matched name ++ expand matched rest
    | none => '$' :: expand matched r
  | c :: r => c :: expand matched r
termination_by t => t.length
decreasing_by
  · simp; omega
  · have := captureRef_length _h
    simp
    omega
  · simp
  · simp

/-- `.replace("$", "$$")` (main.rs:41). -/
def escapeDollar (t : List Char) : List Char := t.flatMap fun c => if c = '$' then ['$', '$'] else [c]

/-- `regexp.replace(credentials, text)` (main.rs:44-48): only the leftmost match is replaced. -/
def replaceFirst (ci : CaseEq) (user replacement text : List Char) : List Char :=
  match search ci user text with
  | some (pre, m, post) => pre ++ expand m replacement ++ post
  | none => text

/-- `build_entry` (main.rs:104-116); `hash` is what Argon2 returns for the password and a fresh salt. -/
def buildEntry (user hash : List Char) : List Char := user ++ ':' :: hash ++ ['\n']

/-- What the tool is asked to do: `-p PASSWORD` (with the hash it yields) or `-d` (main.rs:84-100; clap requires exactly one). -/
inductive Action where
  | set (hash : List Char)
  | delete
  deriving DecidableEq, Repr

/-- `main` on the content of the file (main.rs:28-53); `none`: the file is not written. -/
def updated (ci : CaseEq) (user : List Char) (action : Action) (credentials : List Char) : Option (List Char) :=
  if isMatch ci user credentials then
    let text := match action with
      | .delete => []
      | .set hash => escapeDollar (buildEntry user hash)
    some (replaceFirst ci user text credentials)
  else match action with
    | .set hash => some (credentials ++ buildEntry user hash)
    | .delete => none

/-- Content of the file after running the tool (main.rs:55-57). -/
def run (ci : CaseEq) (user : List Char) (action : Action) (credentials : List Char) : List Char :=
  (updated ci user action credentials).getD credentials

/-- A run of the tool: what the file holds at the beginning and after each operation on it (`none`: there is no file, or it cannot be read
as text), and whether the tool ends in a panic. -/
structure Run where
  moments : List (Option (List Char))
  panicked : Bool
  deriving DecidableEq, Repr

/-- `main` with the file (main.rs:16-58). `std::fs::read_to_string(..).unwrap()` (line 35) panics if the file cannot be read.
`std::fs::write` (line 56) opens the file with truncation and then writes the new content; that it writes it in one piece, and that
opening and writing succeed, is a simplification. -/
def main (ci : CaseEq) (user : List Char) (action : Action) (file : Option (List Char)) : Run :=
  match file with
  | none => ⟨[none], true⟩
  | some credentials =>
    match updated ci user action credentials with
    | none => ⟨[some credentials], false⟩
    | some newFileContent => ⟨[some credentials, some [], some newFileContent], false⟩

end Ratel.Passwd
