/-
Password files: lines, entries, who has which credential. Nothing here refers to the model's text functions.
-/
import Verif.Model.Auth

namespace Ratel.Spec

/-- `l'` is the line `l` without a carriage return at its end. -/
def WithoutCr (l l' : List Char) : Prop := l = l' ++ ['\r'] ∨ (l' = l ∧ ∀ x, l ≠ x ++ ['\r'])

/-- The lines of a text: each ends with a line feed, possibly preceded by a carriage return; the last one may lack the line feed. -/
inductive FileLines (sv : StdVersion) : List Char → List (List Char) → Prop
  | empty : FileLines sv [] []
  | unterminated (l l' : List Char) : l ≠ [] → '\n' ∉ l → (if sv.stripFinalCr then WithoutCr l l' else l' = l) → FileLines sv l [l']
  | line (l l' rest : List Char) (ls : List (List Char)) :
      '\n' ∉ l → WithoutCr l l' → FileLines sv rest ls → FileLines sv (l ++ '\n' :: rest) (l' :: ls)

/-- A line gives `user` the credential `cred`: `user` is its text before the first ':', `cred` all that follows. -/
def Gives (line user cred : List Char) : Prop := ':' ∉ user ∧ line = user ++ ':' :: cred

/-- The credential of `user` according to the lines: the last line for that user counts. -/
def CredentialIn (ls : List (List Char)) (user cred : List Char) : Prop :=
  ∃ pre line post, ls = pre ++ line :: post ∧ Gives line user cred ∧ ∀ l ∈ post, ∀ c, ¬ Gives l user c

/-- An entry of a password file. -/
structure Entry where
  user : List Char
  hash : List Char
  deriving DecidableEq

/-- An entry that can be written and read back: no ':' or line feed where they would be misread, no carriage return at the end. -/
structure Entry.Ok (e : Entry) : Prop where
  userColon : ':' ∉ e.user
  userNl : '\n' ∉ e.user
  hashColon : ':' ∉ e.hash
  hashNl : '\n' ∉ e.hash
  hashCr : ∀ x, e.hash ≠ x ++ ['\r']

/-- The line of an entry. -/
def Entry.line (e : Entry) : List Char := e.user ++ ':' :: e.hash

/-- A file holding these entries, each on a line of its own. -/
def fileOf (es : List Entry) : List Char := es.flatMap fun e => e.line ++ ['\n']

/-- `a` and `b` are the same name but for upper and lower case. -/
inductive SameName (ci : Char → Char → Bool) : List Char → List Char → Prop
  | nil : SameName ci [] []
  | cons (a b : Char) (x y : List Char) : ci a b = true → SameName ci x y → SameName ci (a :: x) (b :: y)

/-- The name ends with `user`, but for upper and lower case. -/
def EndsLike (ci : Char → Char → Bool) (user name : List Char) : Prop := ∃ pre tail, name = pre ++ tail ∧ SameName ci user tail

/-- What is needed of case-insensitive comparison: a character equals itself, and ':' and line feed equal nothing else. -/
structure CaseOk (ci : Char → Char → Bool) : Prop where
  refl : ∀ c, ci c c = true
  colon : ∀ c, ci c ':' = true → c = ':'
  nl : ∀ c, ci c '\n' = true → c = '\n'

end Ratel.Spec
