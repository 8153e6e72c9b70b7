/-
The version of the broker: build.rs, src/config/build_info.rs and the beginning of `main` (src/main.rs:8-12).
-/
import Verif.Model.Basic

namespace Ratel.Build

/-- `main` of build.rs (lines 3-11). `stdout` is what `git rev-parse HEAD` prints (line 4-7), `none` if it cannot be run; its exit status is not looked at.
The result is what the script prints (line 10); `none`: it panics (lines 7, 8, 9), and the build fails. -/
def script (stdout : Option (List UInt8)) : Option (List Char) :=
  match stdout with
  | none => none
  | some bytes =>
    match fromUtf8 bytes with
    | none => none
    | some gitHash =>
      if (strBytes gitHash).length = 0 then none
      else some ("cargo:rustc-env=BUILD_GIT_HASH=".toList ++ gitHash.toList ++ ['\n'])

/-- What cargo makes of it: the value of the variable in the first line that sets it. Cargo reads the output line by line; lines that do not begin with
`cargo:` are ignored. (Cargo also takes blanks off the end of the line; git prints none.) -/
def rustcEnv (name : List Char) (printed : List Char) : Option (List Char) :=
  let line := printed.takeWhile (· ≠ '\n')
  let start := "cargo:rustc-env=".toList ++ name ++ ['=']
  if start.isPrefixOf line then some (line.drop start.length) else none

/-- `BUILD_INFO.commit_hash` (build_info.rs:7-10); without the variable `env!` does not compile. -/
def commitHash (stdout : Option (List UInt8)) : Option (List Char) :=
  (script stdout).bind (rustcEnv "BUILD_GIT_HASH".toList)

/-- `&s[..n]`; `none`: it panics, since the text is shorter than `n` bytes or byte `n` is within a character. -/
def sliceTo : Nat → List Char → Option (List Char)
  | 0, _ => some []
  | _ + 1, [] => none
  | n + 1, c :: cs => if c.utf8Size ≤ n + 1 then (sliceTo (n + 1 - c.utf8Size) cs).map (c :: ·) else none

/-- The text `--version` shows, made before the arguments are looked at (main.rs:12, 16); `none`: `main` panics. The same slice is taken in
application.rs:15-19. -/
def version (pkg commit : List Char) : Option (List Char) :=
  (sliceTo 10 commit).map fun s => ['v'] ++ pkg ++ ['('] ++ s ++ [')']

end Ratel.Build
