/-
src/broker/authentication.rs. Text is handled as lists of characters.
-/
import Verif.Model.Handler

namespace Ratel

/-- What differs between releases of the Rust standard library: up to 1.65 `str::lines` also removed a carriage return at the very
end of a text that does not end in a line feed. Theorems hold for both. -/
structure StdVersion where
  stripFinalCr : Bool
  deriving DecidableEq, Repr

/-- `split_inclusive('\n')`: the lines, each with the information whether it was ended by a line feed. -/
def splitLines : List Char → List (List Char × Bool)
  | [] => []
  | c :: cs =>
    if c = '\n' then ([], true) :: splitLines cs
    else match splitLines cs with
      | [] => [([c], false)]
      | (l, t) :: r => (c :: l, t) :: r

/-- `strip_suffix('\r')`. -/
def stripCr (l : List Char) : List Char := if l.getLast? = some '\r' then l.dropLast else l

/-- `str::lines` (authentication.rs:54, 56). -/
def lines (sv : StdVersion) (text : List Char) : List (List Char) :=
  (splitLines text).map fun (l, terminated) => if terminated || sv.stripFinalCr then stripCr l else l

/-- `line.split_once(':')` (authentication.rs:57). -/
def splitOnceColon : List Char → Option (List Char × List Char)
  | [] => none
  | c :: cs =>
    if c = ':' then some ([], cs)
    else match splitOnceColon cs with
      | some (a, b) => some (c :: a, b)
      | none => none

/-- `FileIdentityManager` (authentication.rs:46-48). -/
structure FileIdentityManager where
  passwordsByUsername : AssocMap String

namespace FileIdentityManager

/-- The loop of `FileIdentityManager::new` (authentication.rs:56-62); `none` is `Err(InvalidEntry)`. -/
def loadLines : List (List Char) → AssocMap String → Option (AssocMap String)
  | [], m => some m
  | line :: rest, m =>
    match splitOnceColon line with
    | none => none
    | some (username, password) => loadLines rest (m.insert (String.ofList username) (String.ofList password))

/-- `FileIdentityManager::new` on the content of the file (authentication.rs:51-69). Reading the file is not modelled. -/
def new (sv : StdVersion) (credentials : List Char) : Option FileIdentityManager :=
  (loadLines (lines sv credentials) []).map FileIdentityManager.mk

end FileIdentityManager

/-- The password-hashing library (`argon2`, `password_hash` crates): `parse` is `PasswordHash::new`, `verify` is
`Argon2::default().verify_password`. Nothing is assumed about it except where a theorem says so. -/
structure Hashing where
  Hash : Type
  parse : String → Option Hash
  verify : List UInt8 → Hash → Bool

/-- `authenticate` (authentication.rs:73-84). -/
def FileIdentityManager.authenticate (hs : Hashing) (f : FileIdentityManager) : IdentityProvider := fun username password =>
  match f.passwordsByUsername.get? username with
  | none => .error .userNotFound
  | some passwordHash =>
    match hs.parse passwordHash with
    | none => .error .encryptionError
    | some parsedHash => if hs.verify (strBytes password) parsedHash then .ok () else .error .invalidPassword

end Ratel
