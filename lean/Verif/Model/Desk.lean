/-
ratelmq-passwd/src/main.rs, call by call: any number of runs of the tool on one password file, whose reads and writes may be split,
fail, and interleave.
-/
import Verif.Model.Basic
import Verif.Model.Passwd

namespace Ratel.Passwd

/-- Where a run of the tool is (main.rs:16-58). `reading`: in `std::fs::read_to_string` (line 35), with these bytes read so far;
`opening`: before the file is opened, truncated, by `std::fs::write` (line 56); `writing`: in its `write_all`, with so many bytes written. -/
inductive Stage where
  | reading (got : List UInt8)
  | opening (content : List UInt8)
  | writing (content : List UInt8) (done : Nat)
  | finished
  | panicked
  deriving DecidableEq, Repr

/-- A run of the tool. -/
structure Job where
  user : List Char
  action : Action
  stage : Stage
  deriving DecidableEq, Repr

/-- What the operating system does with the next call: it reads or writes at most `k + 1` bytes, or fails. -/
inductive Outcome where
  | moves (k : Nat)
  | fails
  deriving DecidableEq, Repr

/-- Between reading and writing (main.rs:35-57); what was read must be text. -/
def afterRead (ci : CaseEq) (job : Job) (got : List UInt8) : Stage :=
  match fromUtf8 got with
  | none => .panicked
  | some credentials =>
    match updated ci job.user job.action credentials.toList with
    | none => .finished
    | some newFileContent => .opening (strBytes (String.ofList newFileContent))

/-- Write at a position of the file; a gap is filled with zeros. -/
def writeAt (file : List UInt8) (pos : Nat) (piece : List UInt8) : List UInt8 :=
  file.take pos ++ List.replicate (pos - file.length) 0 ++ piece ++ file.drop (pos + piece.length)

/-- The next call of a run. Every error is unwrapped (main.rs:35, 56). A file that does not exist cannot be read, but is created when it is
opened for writing. -/
def stepJob (ci : CaseEq) (file : Option (List UInt8)) (job : Job) : Outcome → Option (List UInt8) × Stage
  | .fails =>
    match job.stage with
    | .finished => (file, .finished)
    | _ => (file, .panicked)
  | .moves k =>
    match job.stage with
    | .reading got =>
      match file with
      | none => (none, .panicked)
      | some bytes =>
        if (bytes.drop got.length).take (k + 1) = [] then (file, afterRead ci job got)
        else (file, .reading (got ++ (bytes.drop got.length).take (k + 1)))
    | .opening content => (some [], .writing content 0)
    | .writing content done =>
      if content.length ≤ done then (file, .finished)
      else (some (writeAt (file.getD []) done ((content.drop done).take (k + 1))), .writing content (done + ((content.drop done).take (k + 1)).length))
    | .finished => (file, .finished)
    | .panicked => (file, .panicked)

/-- The password file (`none`: there is none) and the runs of the tool. -/
structure Desk where
  file : Option (List UInt8)
  jobs : Nat → Job

namespace Desk

/-- One call of one run. -/
def step (ci : CaseEq) (d : Desk) (x : Nat × Outcome) : Desk :=
  let (file, stage) := stepJob ci d.file (d.jobs x.1) x.2
  ⟨file, fun j => if j = x.1 then { d.jobs x.1 with stage := stage } else d.jobs j⟩

/-- Any interleaving of calls. -/
def run (ci : CaseEq) (d : Desk) (xs : List (Nat × Outcome)) : Desk := xs.foldl (step ci) d

/-- The runs are about to begin. -/
def start (file : Option (List UInt8)) (tasks : Nat → List Char × Action) : Desk :=
  ⟨file, fun i => ⟨(tasks i).1, (tasks i).2, .reading []⟩⟩

end Desk

end Ratel.Passwd
