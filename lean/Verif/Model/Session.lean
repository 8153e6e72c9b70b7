/-
src/broker/session/session_entity.rs, src/broker/session/session_repository.rs
-/
import Verif.Model.AssocMap
import Verif.Model.Packets

namespace Ratel

/-- An instant of `DateTime<Utc>`, in nanoseconds. -/
abbrev Instant := Int

/-- `Duration::seconds(s)` in nanoseconds. -/
def durationSeconds (s : Int) : Int := s * 1000000000

/-- `Session` (session_entity.rs:7-15). The sender is the identity of the connection whose queue it feeds. -/
structure Session where
  clientId : ClientId
  ip : Nat
  persistent : Bool
  sender : ConnId
  keepAliveSeconds : UInt16
  lastActivity : Instant
  deriving DecidableEq, Repr

namespace Session

/-- `set_last_activity` (session_entity.rs:44-46). -/
def setLastActivity (s : Session) (t : Instant) : Session := { s with lastActivity := t }

/-- `(self.keep_alive_seconds as f32 * 1.5) as i64` (session_entity.rs:57). `k as f32` is exact for `k < 2^16`; the product
`3k/2` has a significand of at most 18 bits, so the `f32` multiplication is exact as well (C63_f32_exact); the cast to `i64` rounds
towards zero. -/
def leewaySeconds (keepAliveSeconds : UInt16) : Int := Int.ofNat (keepAliveSeconds.toNat * 3 / 2)

/-- `is_keep_alive_expired` (session_entity.rs:52-61). -/
def isKeepAliveExpired (s : Session) (now : Instant) : Bool :=
  if s.keepAliveSeconds = 0 then false
  else
    let keepAliveExpiresAt := s.lastActivity + durationSeconds (leewaySeconds s.keepAliveSeconds)
    keepAliveExpiresAt ≤ now

end Session

/-- `InMemorySessionRepository` (session_repository.rs:17-19). -/
structure SessionRepository where
  sessions : AssocMap Session

namespace SessionRepository

/-- `Default` (session_repository.rs:57-63). -/
def default : SessionRepository := ⟨[]⟩

/-- `insert` (session_repository.rs:28-30). -/
def insert (r : SessionRepository) (session : Session) : SessionRepository :=
  ⟨r.sessions.insert session.clientId session⟩

/-- `exists` (session_repository.rs:32-34). -/
def «exists» (r : SessionRepository) (clientId : ClientId) : Bool := r.sessions.contains clientId

/-- `get` (session_repository.rs:36-38). -/
def get (r : SessionRepository) (clientId : ClientId) : Option Session := r.sessions.get? clientId

/-- `delete` (session_repository.rs:44-46). -/
def delete (r : SessionRepository) (clientId : ClientId) : Option Session × SessionRepository :=
  (r.sessions.get? clientId, ⟨r.sessions.erase clientId⟩)

/-- `count` (session_repository.rs:48-50). -/
def count (r : SessionRepository) : Nat := r.sessions.length

end SessionRepository

end Ratel
