/-
Runs of the password tool on one file.
-/
import Verif.Model.Desk

namespace Ratel.Spec

open Passwd

/-- The bytes of a text. -/
def bytesOf (t : List Char) : List UInt8 := strBytes (String.ofList t)

/-- One change of a password after the other. -/
def serially (ci : CaseEq) (tasks : List (List Char × Action)) (t : List Char) : List Char :=
  tasks.foldl (fun t task => Passwd.run ci task.1 task.2 t) t

end Ratel.Spec
