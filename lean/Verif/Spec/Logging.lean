/-
What a log may show and has to show.
-/
import Verif.Model.Logging

namespace Ratel.Spec

/-- The event without the password and without the content of messages. -/
def redacted : ClientEvent → ClientEvent
  | .connected p addr tx =>
    .connected { p with password := p.password.map fun _ => "", willMessage := p.willMessage.map fun m => { m with payload := [] } } addr tx
  | .controlPacket id (.connect p) tx =>
    .controlPacket id (.connect
      { p with password := p.password.map fun _ => "", willMessage := p.willMessage.map fun m => { m with payload := [] } }) tx
  | .controlPacket id (.publish p) tx => .controlPacket id (.publish { p with message := { p.message with payload := [] } }) tx
  | ev => ev

/-- The refusal of a login: the user, and why. -/
def refusal (auth : IdentityProvider) : ClientEvent → Option (String × AuthenticationError)
  | .connected p _ _ =>
    match p.userName, p.password with
    | some u, some pw =>
      match auth u pw with
      | .error e => some (u, e)
      | .ok _ => none
    | _, _ => none
  | _ => none

/-- Two lists of the same length whose items are related one by one. -/
inductive Matched {α β : Type} (r : α → β → Prop) : List α → List β → Prop where
  | nil : Matched r [] []
  | cons {a : α} {b : β} {l : List α} {l' : List β} (h : r a b) (hl : Matched r l l') : Matched r (a :: l) (b :: l')

/-- The part of a text between a beginning and an end. -/
def between (a b l : List Char) : Option (List Char) :=
  if a.isPrefixOf l && b.isSuffixOf (l.drop a.length) then some ((l.drop a.length).take (l.length - a.length - b.length)) else none

/-- The refusal that a record of the log shows. -/
def shown (t : Texts) (r : LogRecord) : Option (String × AuthenticationError) :=
  if r.level = .info ∧ r.origin = .handler then
    [AuthenticationError.userNotFound, .invalidPassword, .encryptionError].findSome? fun e =>
      (between "Client ".toList (" authentication error: ".toList ++ Fmt.authError t e) r.message).map fun u => (String.ofList u, e)
  else none

/-- The records of the packet handler and of the messaging service. -/
def ofHandler (r : LogRecord) : Bool := r.origin = .handler || r.origin = .messaging

/-- A control character. -/
def Control (c : Char) : Prop := c.toNat < 32 ∨ c.toNat = 127

/-- A text of characters that `{:?}` shows as they are. -/
def PlainText (t : Texts) (s : String) : Prop := ∀ c ∈ s.toList, t.printable c = true ∧ ¬ Control c ∧ c ≠ '\\' ∧ c ≠ '"'

/-- Bytes that are printable characters of ASCII, no quotation marks and no backslashes. -/
def PlainBytes (l : List UInt8) : Prop := ∀ b ∈ l, 0x20 ≤ b ∧ b < 0x7f ∧ b ≠ 0x22 ∧ b ≠ 0x5c

/-- The libraries show no control characters of themselves. -/
structure Sober (t : Texts) : Prop where
  printable : ∀ c, t.printable c = true → ¬ Control c
  ioError : ∀ e, ∀ c ∈ t.ioError e, ¬ Control c
  hashError : ∀ c ∈ t.hashError, ¬ Control c
  sender : ∀ d, ∀ c ∈ t.sender d, ¬ Control c
  address : ∀ a, ∀ c ∈ t.address a, ¬ Control c

end Ratel.Spec
