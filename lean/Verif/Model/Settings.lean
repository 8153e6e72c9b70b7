/-
Where the settings come from: settings/mod.rs:20-29 on top of the crates `config` (0.10), `serde` and `dotenv`.

The crates are modelled as documented and as far as the broker uses them. The configuration file is given as the table that `config` makes
of the TOML text. Not modelled: subscripts `[n]` in names of variables; letters outside ASCII whose lower case is an ASCII letter; a section
given as a TOML array instead of a table (taken to be an error).
-/
import Verif.Model.Boot

namespace Ratel

namespace Config

/-- `config::Value`. Strings, numbers and truth values are given by their texts: `String` is made of each of them in the same way. -/
inductive Value where
  | scalar (text : String)
  | array (values : List Value)
  | table (entries : List (String × Value))

namespace Value

/-- The entries of a table; nothing else has any. -/
def entries : Value → AssocMap Value
  | table m => m
  | _ => []

/-- `path::Expression::set` for a path of identifiers: tables on the way are made if there are none, also in the place of other values. -/
def setAt : List String → Value → Value → Value
  | [], v, _ => v
  | k :: ks, v, root => table (AssocMap.upsert (table []) (setAt ks v) root.entries k)

/-- What a path leads to. -/
def lookup : List String → Value → Option Value
  | [], v => some v
  | k :: ks, v => (v.entries.get? k).bind (lookup ks)

/-- `String::deserialize`. -/
def text? : Value → Option String
  | scalar t => some t
  | _ => none

/-- `Vec::<String>::deserialize`. -/
def texts? : Value → Option (List String)
  | array vs => vs.mapM text?
  | _ => none

end Value

/-- Characters of an identifier in a path. -/
def identChar (c : Char) : Bool := c.isAlphanum || c = '_' || c = '-' || c = ' '

/-- `key.replace("__", ".")`, for the separator of settings/mod.rs:25. -/
def dots : List Char → List Char
  | '_' :: '_' :: r => '.' :: dots r
  | c :: r => c :: dots r
  | [] => []

/-- Splitting a key at its dots. -/
def splitDots : List Char → List (List Char)
  | [] => [[]]
  | c :: cs =>
    if c = '.' then [] :: splitDots cs
    else match splitDots cs with
      | [] => [[c]]
      | p :: ps => (c :: p) :: ps

/-- `path::Expression::from_str`; a key that is no path is an identifier as a whole. -/
def pathOf (key : String) : List String :=
  let parts := splitDots key.toList
  if parts.all (fun p => !p.isEmpty && p.all identChar) then parts.map String.ofList else [key]

/-- A variable of the environment; `none`: not Unicode. -/
structure Var where
  name : Option String
  value : Option String
  deriving DecidableEq, Repr

/-- The key of a variable: `Environment::with_prefix("ratelmq").separator("__")` (settings/mod.rs:25) takes the variables beginning with
`ratelmq_`, in any case. -/
def keyOf (name : String) : Option String :=
  let lower := name.toList.map Char.toLower
  if lower.take 8 = "ratelmq_".toList then some (String.ofList ((dots (name.toList.drop 8)).map Char.toLower)) else none

/-- `Environment::collect`; `none`: `std::env::vars` panics, since a variable is not Unicode. -/
def collect : List Var → AssocMap String → Option (AssocMap String)
  | [], m => some m
  | ⟨some name, some value⟩ :: vars, m =>
    match keyOf name with
    | some key => collect vars (m.insert key value)
    | none => collect vars m
  | _ :: _, _ => none

/-- The order in which a `HashMap` is gone through. -/
structure HashOrder where
  order : AssocMap String → AssocMap String
  perm : ∀ m, (order m).Perm m

/-- Merging the collected variables into what the file says (settings/mod.rs:24-25). -/
def merged (file : Value) (vars : List (String × String)) : Value :=
  vars.foldl (fun root x => Value.setAt (pathOf x.1) (.scalar x.2) root) file

/-- `config.try_into()` (settings/mod.rs:27): unknown keys are ignored, missing ones an error. -/
def ofValue (root : Value) : Option Settings :=
  match (root.lookup ["mqtt", "listeners_tcp"]).bind Value.texts?, (root.lookup ["authentication", "password_file"]).bind Value.text? with
  | some listeners, some passwordFile => some { listenersTcp := listeners, passwordFile := passwordFile }
  | _, _ => none

/-- `Settings::new` (settings/mod.rs:21-28); `file` is the configuration file, `none` if it cannot be found, read or parsed. -/
def settings (order : HashOrder) (file : Option Value) (vars : List Var) : Option Settings :=
  match file with
  | none => none
  | some file =>
    match collect vars [] with
    | none => none
    | some m => ofValue (merged file (order.order m))

/-- `dotenv().ok()` (main.rs:8): the entries of the file `.env` become variables, unless there are such variables already. -/
def dotenv (vars : List Var) (entries : List (String × String)) : List Var :=
  entries.foldl (fun vars e =>
    if vars.any (fun v => v.name = some e.1 ∧ v.value.isSome) then vars
    else vars.filter (fun v => v.name ≠ some e.1) ++ [⟨some e.1, some e.2⟩]) vars

end Config

/-- Starting the broker (main.rs:7-32, application.rs:14-43). -/
def Boot.start (sv : StdVersion) (hs : Hashing) (env : Env) (peers : ConnId → Sys.Peer) (order : Config.HashOrder)
    (file : Option Config.Value) (dotfile : List (String × String)) (vars : List Config.Var) (read : String → Option (List Char)) :
    Option (Env × Boot) :=
  Boot.launch sv hs env peers (Config.settings order file (Config.dotenv vars dotfile)) read

end Ratel
