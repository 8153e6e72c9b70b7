/-
`SessionService`: src/broker/session/session_service.rs. Public, though the broker does not use it.
-/
import Verif.Model.Session

namespace Ratel

/-- The trait `SessionRepository` (session_repository.rs:6-15), without the two methods that lend out the repository's inside (`get_mut`,
`iter`), which the service does not use. -/
structure SessionRepo (T : Type) where
  insert : T → Session → T
  «exists» : T → ClientId → Bool
  get : T → ClientId → Option Session
  delete : T → ClientId → Option Session × T
  count : T → Nat

/-- `impl SessionRepository for InMemorySessionRepository` (session_repository.rs:27-55). -/
def inMemory : SessionRepo SessionRepository where
  insert := SessionRepository.insert
  «exists» := SessionRepository.exists
  get := SessionRepository.get
  delete := SessionRepository.delete
  count := SessionRepository.count

/-- `SessionService<T>` (session_service.rs:5-11). -/
structure SessionService (T : Type) where
  repository : T

namespace SessionService

variable {T : Type}

/-- `new` (session_service.rs:17-19). -/
def new (repository : T) : SessionService T := ⟨repository⟩

/-- `exists` (session_service.rs:21-23). -/
def «exists» (R : SessionRepo T) (s : SessionService T) (clientId : ClientId) : Bool := R.exists s.repository clientId

/-- `insert` (session_service.rs:25-27). -/
def insert (R : SessionRepo T) (s : SessionService T) (session : Session) : SessionService T := ⟨R.insert s.repository session⟩

/-- `get` (session_service.rs:29-31). -/
def get (R : SessionRepo T) (s : SessionService T) (clientId : ClientId) : Option Session := R.get s.repository clientId

/-- `delete` (session_service.rs:33-35). -/
def delete (R : SessionRepo T) (s : SessionService T) (clientId : ClientId) : Option Session × SessionService T :=
  let (r, repository) := R.delete s.repository clientId
  (r, ⟨repository⟩)

/-- `count` (session_service.rs:37-39). -/
def count (R : SessionRepo T) (s : SessionService T) : Nat := R.count s.repository

end SessionService

end Ratel
