/-
Topics, topic filters and subscriptions, after MQTT 3.1.1 section 4.7. Nothing here refers to the model of the repository.
-/
import Verif.Model.Packets

namespace Ratel.Spec

/-- Levels written one after the other with '/' in between. -/
def joinLevels : List (List Char) → List Char
  | [] => []
  | [l] => l
  | l :: ls => l ++ '/' :: joinLevels ls

/-- `ls` are the levels of the topic or filter `s`. -/
structure Levels (s : String) (ls : List String) : Prop where
  some : ls ≠ []
  noSlash : ∀ l ∈ ls, '/' ∉ l.toList
  join : joinLevels (ls.map String.toList) = s.toList

/-- The levels of a filter match the levels of a topic. -/
inductive LevelsMatch : List String → List String → Prop
  | done : LevelsMatch [] []
  /-- A final '#' matches one or more levels. -/
  | hash (t : String) (ts : List String) : LevelsMatch ["#"] (t :: ts)
  /-- '+' matches any one level. -/
  | plus (t : String) (fs ts : List String) : LevelsMatch fs ts → LevelsMatch ("+" :: fs) (t :: ts)
  /-- Any other level matches itself. -/
  | literal (t : String) (fs ts : List String) : LevelsMatch fs ts → LevelsMatch (t :: fs) (t :: ts)

/-- A filter matches a topic. -/
def Matches (filter topic : String) : Prop :=
  ∃ fs ts, Levels filter fs ∧ Levels topic ts ∧ LevelsMatch fs ts

/-- In how many ways the levels of a filter match those of a topic: at most one if the topic has no wildcards; a topic level that is
itself "+" or "#" is matched both literally and as a level. -/
def levelWays : List String → List String → Nat
  | [], [] => 1
  | [], _ :: _ => 0
  | _ :: _, [] => 0
  | f :: fs, t :: ts =>
    (if f = "#" ∧ fs = [] then 1 else 0) + (if f = t then levelWays fs ts else 0) + (if f = "+" then levelWays fs ts else 0)

open Classical in
/-- The levels of a topic or filter. -/
noncomputable def levelsOf (s : String) : List String := if h : ∃ ls, Levels s ls then h.choose else []

/-- In how many ways a filter matches a topic. -/
noncomputable def ways (filter topic : String) : Nat := levelWays (levelsOf filter) (levelsOf topic)

/-- A topic without wildcard characters, as MQTT demands of topics messages are published to. -/
def PlainTopic (topic : String) : Prop := '+' ∉ topic.toList ∧ '#' ∉ topic.toList

/-- A request concerning subscriptions. -/
inductive SubOp where
  | subscribe (client : ClientId) (subscription : Subscription)
  | unsubscribe (client : ClientId) (filters : List String)
  | disconnected (client : ClientId)
  | connectionLost (client : ClientId)
  deriving DecidableEq

/-- The client a request comes from. -/
def SubOp.client : SubOp → ClientId
  | subscribe c _ => c
  | unsubscribe c _ => c
  | disconnected c => c
  | connectionLost c => c

/-- The filters a request names. -/
def SubOp.named : SubOp → List String
  | subscribe _ s => [s.topic]
  | unsubscribe _ fs => fs
  | disconnected _ => []
  | connectionLost _ => []

/-- Subscriptions held: who, to which filter. -/
abbrev Entries := List (ClientId × String)

namespace Entries

/-- Unsubscribe `c` once from each of the filters. -/
def unsubscribe (c : ClientId) (fs : List String) (es : Entries) : Entries := fs.foldl (fun es f => es.erase (c, f)) es

/-- The filters `c` is subscribed to, each once. -/
def filtersOf (c : ClientId) (es : Entries) : List String := ((es.filter fun e => e.1 = c).map Prod.snd).eraseDups

/-- Bookkeeping that counts: every SUBSCRIBE adds a subscription; an unsubscribe takes away one for each filter named; a disconnect
takes away one for each filter the client is subscribed to. -/
def counting (es : Entries) : SubOp → Entries
  | .subscribe c s => es ++ [(c, s.topic)]
  | .unsubscribe c fs => unsubscribe c fs es
  | .disconnected c => unsubscribe c (filtersOf c es) es
  | .connectionLost c => unsubscribe c (filtersOf c es) es

/-- Bookkeeping as MQTT wants it: a client holds at most one subscription per filter; an unsubscribe ends it; a disconnect ends all
of the client's subscriptions. -/
def standard (es : Entries) : SubOp → Entries
  | .subscribe c s => if (c, s.topic) ∈ es then es else es ++ [(c, s.topic)]
  | .unsubscribe c fs => es.filter fun e => !(e.1 = c ∧ e.2 ∈ fs)
  | .disconnected c => es.filter fun e => e.1 ≠ c
  | .connectionLost c => es.filter fun e => e.1 ≠ c

/-- Subscriptions after a history, counting. -/
def counted (h : List SubOp) : Entries := h.foldl counting []

/-- Subscriptions after a history, as MQTT wants it. -/
def current (h : List SubOp) : Entries := h.foldl standard []

open Classical in
/-- How many of the subscriptions of `c` match the topic. -/
noncomputable def matching (es : Entries) (c : ClientId) (topic : String) : Nat :=
  es.countP fun e => decide (e.1 = c ∧ Matches e.2 topic)

/-- How many copies of a message on the topic the subscriptions of `c` call for, for topics of any shape. -/
noncomputable def copies (es : Entries) (c : ClientId) (topic : String) : Nat :=
  ((es.filter fun e => e.1 = c).map fun e => ways e.2 topic).sum

end Entries

/-- Client `c` never subscribes to a filter it is already subscribed to. -/
def NoRepeatBy (c : ClientId) (h : List SubOp) : Prop :=
  ∀ pre s post, h = pre ++ SubOp.subscribe c s :: post → (c, s.topic) ∉ Entries.current pre

end Ratel.Spec
