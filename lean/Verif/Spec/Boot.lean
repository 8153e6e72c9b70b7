/-
What the password file says about who may connect.
-/
import Verif.Spec.PasswordFile
import Verif.Model.Auth

namespace Ratel.Spec

/-- The lines of the password file let this CONNECT in: it names no user, or it names one together with a password that the
hashing library finds to fit the user's credential. -/
def Admits (hs : Hashing) (ls : List (List Char)) (p : ConnectPacket) : Prop :=
  p.userName = none ∨ ∃ user password, p.userName = some user ∧ p.password = some password
    ∧ ∃ cred : String, CredentialIn ls user.toList cred.toList
      ∧ ∃ hash, hs.parse cred = some hash ∧ hs.verify (strBytes password) hash = true

end Ratel.Spec
