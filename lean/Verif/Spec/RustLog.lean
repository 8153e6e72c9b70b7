/-
The rules one can write into `RUST_LOG`, and what they mean.
-/
import Verif.Model.Logging

namespace Ratel.Spec

/-- How one writes a level; `none` is nothing at all. -/
def levelWord : Option Level → List Char
  | none => "off".toList
  | some .error => "error".toList
  | some .warn => "warn".toList
  | some .info => "info".toList
  | some .debug => "debug".toList
  | some .trace => "trace".toList

/-- A rule: let records up to that level through, from everywhere or from modules whose names begin so. -/
inductive LogRule where
  | everywhere (level : Option Level)
  | within (modules : List Char) (level : Option Level)

namespace LogRule

/-- How one writes it. -/
def text : LogRule → List Char
  | everywhere l => levelWord l
  | within name l => name ++ '=' :: levelWord l

/-- The level. -/
def level : LogRule → Option Level
  | everywhere l => l
  | within _ l => l

/-- How much of the name of the module it gives. -/
def names : LogRule → List Char
  | everywhere _ => []
  | within name _ => name

/-- It allows records of this level. -/
def Allows (r : LogRule) (level : Level) : Prop := ∃ l, r.level = some l ∧ level.rank ≤ l.rank

end LogRule

/-- Rules written one after the other, with commas in between. -/
def rulesText : List LogRule → List Char
  | [] => []
  | [r] => r.text
  | r :: rs => r.text ++ ',' :: rulesText rs

/-- The rules allow records of this level and module: of the rules for the module the one that gives most of its name allows it, the last of them if there
are several. -/
def Allowed (rs : List LogRule) (level : Level) (path : List Char) : Prop :=
  ∃ pre r post, rs = pre ++ r :: post ∧ r.names <+: path ∧ r.Allows level
    ∧ (∀ e ∈ pre, e.names <+: path → e.names.length ≤ r.names.length)
    ∧ ∀ e ∈ post, e.names <+: path → e.names.length < r.names.length

/-- No character that means something else. -/
def SoundName (white : Char → Bool) (name : List Char) : Prop := ∀ c ∈ name, c ≠ ',' ∧ c ≠ '/' ∧ c ≠ '=' ∧ white c = false

/-- Letters are not white. -/
def SoundWhite (white : Char → Bool) : Prop := ∀ l, ∀ c ∈ levelWord l, white c = false

end Ratel.Spec
