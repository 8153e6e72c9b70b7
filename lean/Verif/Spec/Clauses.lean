/-
Vocabulary for some further clauses of the standard: passwords that are not text (3.1.3.5), requests with several filters (3.8.4, 3.10.4).
-/
import Verif.Spec.Wire

namespace Ratel.Spec

/-- Variable header and payload of a CONNECT without will whose password is any byte string (3.1.3.5), in the place of that of `c`. -/
def connectRestBinary (c : Connect) (password : List UInt8) : List UInt8 :=
  str c.protocolName ++ [c.protocolLevel, byte (connectFlags { c with password := some "" })] ++ twoBytes c.keepAlive.toNat
  ++ str c.clientId ++ optional str c.userName ++ twoBytes password.length ++ password

end Ratel.Spec
