/-
What `RUST_LOG` lets through: crate `env_logger` 0.8 (src/filter/mod.rs), as `env_logger::init()` (main.rs:9) uses it. The crate is not part of
/repo; this is its documented behaviour.
-/
import Verif.Model.Logging

namespace Ratel.RustLog

/-- `str::split` at a character. -/
def splitOn (c : Char) : List Char → List (List Char)
  | [] => [[]]
  | x :: xs =>
    if x = c then [] :: splitOn c xs
    else
      match splitOn c xs with
      | [] => [[x]]
      | p :: ps => (x :: p) :: ps

/-- `str::trim`; which characters are white is a table of Unicode. -/
def trim (white : Char → Bool) (s : List Char) : List Char := ((s.dropWhile white).reverse.dropWhile white).reverse

/-- The names of `LevelFilter`, coarse to fine. -/
def levelNames : List (List Char) := ["off".toList, "error".toList, "warn".toList, "info".toList, "debug".toList, "trace".toList]

/-- `LevelFilter::from_str`: the name in capitals, small letters or mixed. -/
def parseLevel (s : List Char) : Option Nat := levelNames.findIdx? (· = s.map Char.toLower)

/-- `Directive`: the beginning of the names of modules it is for, and the finest level it lets through. -/
structure Directive where
  name : Option (List Char)
  level : Nat
  deriving DecidableEq, Repr

/-- One of the parts between commas; `none`: it is ignored, with a warning. -/
def parsePart (white : Char → Bool) (s : List Char) : Option Directive :=
  match splitOn '=' s with
  | [p] =>
    match parseLevel p with
    | some l => some ⟨none, l⟩
    | none => some ⟨some p, 5⟩
  | [p, l] => if trim white l = [] then some ⟨some p, 5⟩ else (parseLevel (trim white l)).map fun l => ⟨some p, l⟩
  | _ => none

/-- The parts between commas. Later releases trim them, too. -/
def parseMods (white : Char → Bool) (trims : Bool) (mods : List Char) : List Directive :=
  (((splitOn ',' mods).map fun s => if trims then trim white s else s).filter (· ≠ [])).filterMap (parsePart white)

/-- `parse_spec`: directives, and perhaps a regular expression after a slash. -/
def parseSpec (white : Char → Bool) (trims : Bool) (spec : List Char) : List Directive × Option (List Char) :=
  match splitOn '/' spec with
  | [mods] => (parseMods white trims mods, none)
  | [mods, re] => (parseMods white trims mods, some re)
  | _ => ([], none)

/-- `name.len()`, in bytes; 0 without a name. -/
def Directive.len (d : Directive) : Nat := ((d.name.getD []).map Char.utf8Size).sum

/-- The directive is for this module. -/
def Directive.isFor (d : Directive) (path : List Char) : Bool :=
  match d.name with
  | some name => name.isPrefixOf path
  | none => true

/-- A place for a directive in a sorted list, before others of its length. -/
def insert (d : Directive) : List Directive → List Directive
  | [] => [d]
  | e :: es => if d.len ≤ e.len then d :: e :: es else e :: insert d es

/-- `Builder::build`: sorted by length (`sort_by` is stable); without directives only errors are let through. -/
def build (ds : List Directive) : List Directive := if ds = [] then [⟨none, 1⟩] else ds.foldr insert []

/-- `enabled`: the last that fits decides. -/
def enabled (ds : List Directive) (level : Level) (path : List Char) : Bool :=
  match ds.reverse.find? (·.isFor path) with
  | some d => level.rank ≤ d.level
  | none => false

/-- `Filter::matches`. `spec` is the value of `RUST_LOG`, if it has one that is Unicode; what regular expressions mean is a parameter, `none` if it is
none. -/
def lets (white : Char → Bool) (trims : Bool) (regex : List Char → Option (List Char → Bool)) (spec : Option (List Char)) (r : LogRecord) : Bool :=
  let (ds, re) := match spec with
    | some s => parseSpec white trims s
    | none => ([], none)
  enabled (build ds) r.level r.origin.path && ((re.bind regex).all fun m => m r.message)

end Ratel.RustLog
