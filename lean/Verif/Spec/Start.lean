/-
What is delivered: config/ratelmq.toml, and the image that the Dockerfile makes.
-/
import Verif.Model.Start
import Verif.Spec.Settings

namespace Ratel.Spec

open Config

/-- config/ratelmq.toml. -/
def shippedText : List Char :=
  "[mqtt]\nlisteners_tcp = [ \"0.0.0.0:1883\" ]\n\n[authentication]\npassword_file = \"/etc/ratelmq/passwd\"\n".toList

/-- What that text means in TOML. -/
def shippedTable : Value :=
  .table [("mqtt", .table [("listeners_tcp", .array [.scalar "0.0.0.0:1883"])]),
    ("authentication", .table [("password_file", .scalar "/etc/ratelmq/passwd")])]

/-- A file system in which the directory `/etc/ratelmq` is as the Dockerfile makes it (`RUN mkdir -p /etc/ratelmq`,
`COPY ./config/ratelmq.toml /etc/ratelmq/ratelmq.toml`), but for the files `added` to it (by a volume, say). -/
def Image (d : Disk) (added : List String) : Prop :=
  d "/etc/ratelmq/ratelmq.toml" = .text shippedText ∧ ∀ name, "/etc/ratelmq/".toList <+: name.toList → name ≠ "/etc/ratelmq/ratelmq.toml" →
    name ∉ added → d name = .absent

/-- The name of a file, made of a directory (nothing, or ending with a slash), a stem and an extension. -/
structure Named (name dir stem ext : String) : Prop where
  name : name.toList = dir.toList ++ stem.toList ++ '.' :: ext.toList
  dir : dir = "" ∨ ∃ d, dir.toList = d ++ ['/']
  stem : stem ≠ "" ∧ '/' ∉ stem.toList
  ext : ext ≠ "" ∧ '/' ∉ ext.toList ∧ '.' ∉ ext.toList

/-- There is a file of that name. -/
def Present (d : Disk) (name : String) : Prop := d name ≠ .absent ∧ d name ≠ .directory

/-- The broker takes its password file from there: it is the one that the variable RATELMQ_AUTHENTICATION__PASSWORD_FILE gives, or `file` if
there is no such variable. -/
def PasswordsAt (vars : List Var) (file passwords : String) : Prop :=
  (∃ n, ⟨some n, some passwords⟩ ∈ vars ∧ IsVariable n "AUTHENTICATION" "PASSWORD_FILE"
    ∧ ∀ n' x, ⟨some n', some x⟩ ∈ vars → IsVariable n' "AUTHENTICATION" "PASSWORD_FILE" → x = passwords)
  ∨ ((∀ n x, ⟨some n, some x⟩ ∈ vars → ¬ IsVariable n "AUTHENTICATION" "PASSWORD_FILE") ∧ passwords = file)

end Ratel.Spec
