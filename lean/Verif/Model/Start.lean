/-
From the command line to the settings: main.rs:8-31 and settings/mod.rs:21-24, with the search for the configuration file made by the
crate `config` (0.10, `File::with_name(name).format(FileFormat::Toml)`).

The crate is modelled as documented. Parsing of the command line (crate `clap`) is not modelled: the value given for `--config`, if any, is a
parameter. Parsing of TOML is a parameter, too. Paths are taken as they are written, relative ones too: two names are the same file only if
they are the same text.
-/
import Verif.Model.Settings

namespace Ratel

/-- What there is under a path. -/
inductive DiskEntry where
  | absent
  | directory
  /-- a file that cannot be read, or whose bytes are not UTF-8 -/
  | unreadable
  | text (content : List Char)
  deriving DecidableEq, Repr

/-- A file system. -/
abbrev Disk := String → DiskEntry

namespace Disk

/-- `Path::is_file`. -/
def isFile (d : Disk) (name : String) : Bool :=
  match d name with
  | .unreadable => true
  | .text _ => true
  | _ => false

/-- `std::fs::read_to_string`. -/
def readToString (d : Disk) (name : String) : Option (List Char) :=
  match d name with
  | .text t => some t
  | _ => none

end Disk

namespace Config

/-- `PathBuf::set_extension("toml")`: what follows the last dot of the last component is replaced, unless the dot is its first character; a
component without such a dot is appended to. Names that end with a slash, `.` or `..` are taken to be left alone. -/
def tomlName (name : String) : String :=
  let r := name.toList.reverse
  let base := r.takeWhile (· ≠ '/')
  let dir := r.dropWhile (· ≠ '/')
  if base = [] ∨ base = ['.'] ∨ base = ['.', '.'] then name
  else match base.dropWhile (· ≠ '.') with
    | _ :: c :: stem => String.ofList (dir.reverse ++ (c :: stem).reverse ++ ".toml".toList)
    | _ => String.ofList (dir.reverse ++ base.reverse ++ ".toml".toList)

/-- `FileSourceFile::find_file` of the crate, for the format TOML: the file of that name, or else the one with the extension `toml`. -/
def findFile (d : Disk) (name : String) : Option String :=
  if d.isFile name then some name
  else if d.isFile (tomlName name) then some (tomlName name)
  else none

/-- `config.merge(File::with_name(config_filename).format(FileFormat::Toml))?` (settings/mod.rs:24); `none`: an error. -/
def loadFile (toml : List Char → Option Value) (d : Disk) (name : String) : Option Value :=
  (findFile d name).bind fun n => (d.readToString n).bind toml

/-- The name of the configuration file (main.rs:20-30). -/
def fileName (arg : Option String) : String := arg.getD "/etc/ratelmq/ratelmq.conf"

end Config

/-- `main` up to the opening of the first port (main.rs:7-32, application.rs:14-49). `arg`: the value of `--config`; `dotfile`: the entries of
the file `.env`; `vars`: the environment; `none`: the main task panics. -/
def Boot.main (sv : StdVersion) (hs : Hashing) (env : Env) (peers : ConnId → Sys.Peer) (order : Config.HashOrder)
    (toml : List Char → Option Config.Value) (d : Disk) (arg : Option String) (dotfile : List (String × String)) (vars : List Config.Var) :
    Option (Env × Boot) :=
  Boot.start sv hs env peers order (Config.loadFile toml d (Config.fileName arg)) dotfile vars d.readToString

end Ratel
