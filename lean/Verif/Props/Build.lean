/-
C172: the version of a build.
-/
import Verif.Model.Build
import Verif.Spec.Wire
import Verif.Proofs.Unambiguous
import Verif.Proofs.Decoder

namespace Ratel

open Spec

namespace Spec

/-- The name of a commit: at least ten hexadecimal digits (git prints 40, or 64 in repositories with SHA-256). -/
def CommitName (l : List Char) : Prop := 10 ≤ l.length ∧ ∀ c ∈ l, c ∈ "0123456789abcdef".toList

/-- What `git rev-parse HEAD` prints for a commit. -/
def gitPrints (name : List Char) : List UInt8 := utf8 (String.ofList (name ++ ['\n']))

end Spec

open Build

theorem fromUtf8_utf8 (s : String) : fromUtf8 (utf8 s) = some s := fromUtf8_strBytes s

theorem sliceTo_ascii (n : Nat) (l : List Char) (h : ∀ c ∈ l, c.utf8Size = 1) : sliceTo n l = if n ≤ l.length then some (l.take n) else none := by
  induction l generalizing n with
  | nil => cases n <;> simp [sliceTo]
  | cons c l ih =>
    cases n with
    | zero => simp [sliceTo]
    | succ n =>
      rw [sliceTo, h c List.mem_cons_self, if_pos (by omega), Nat.add_sub_cancel, ih n fun d hd => h d (List.mem_cons_of_mem _ hd)]
      by_cases hn : n ≤ l.length
      · rw [if_pos hn, if_pos (by simpa using hn)]; rfl
      · rw [if_neg hn, if_neg (by simpa using hn)]; rfl

/-- What the build remembers of what git prints: the first line. -/
theorem commitHash_eq {s : String} (hs : s ≠ "") : commitHash (some (utf8 s)) = some (s.toList.takeWhile (· ≠ '\n')) := by
  have hlen : (strBytes s).length ≠ 0 := by
    intro h
    exact hs (utf8_inj (t := "") (List.eq_nil_of_length_eq_zero h))
  have hn : ∀ c ∈ "cargo:rustc-env=BUILD_GIT_HASH=".toList, (decide (c ≠ '\n')) = true := by decide +kernel
  have hp : "cargo:rustc-env=".toList ++ "BUILD_GIT_HASH".toList ++ ['='] = "cargo:rustc-env=BUILD_GIT_HASH=".toList := by decide +kernel
  simp only [commitHash, script, fromUtf8_utf8, if_neg hlen, Option.bind_some, rustcEnv, hp]
  rw [List.append_assoc, List.takeWhile_append_of_pos hn]
  rw [if_pos (List.isPrefixOf_iff_prefix.mpr (List.prefix_append _ _)), List.drop_left]
  congr 1
  generalize s.toList = l
  induction l with
  | nil => rfl
  | cons c l ih =>
    by_cases hc : c = '\n'
    · subst hc; rfl
    · rw [List.cons_append, List.takeWhile_cons, List.takeWhile_cons, ih]

theorem hex_plain {name : List Char} (h : CommitName name) : ∀ c ∈ name, c.utf8Size = 1 ∧ c ≠ '\n' := by
  intro c hc
  have h1 : ∀ c ∈ "0123456789abcdef".toList, c.utf8Size = 1 ∧ c ≠ '\n' := by decide +kernel
  exact h1 c (h.2 c hc)

/-- What holds of C172. Built from a commit, the version shown is that of the package and the first ten digits of the commit; so two builds of a version of the
package show the same if and only if these digits are the same. What is missing: builds outside of a commit. -/
theorem C172_version_partial (pkg name : List Char) (h : CommitName name) :
    ∃ commit, commitHash (some (gitPrints name)) = some commit ∧ commit = name
      ∧ version pkg commit = some (['v'] ++ pkg ++ ['('] ++ name.take 10 ++ [')'])
      ∧ ∀ name', CommitName name' → (version pkg name' = version pkg commit ↔ name'.take 10 = name.take 10) := by
  have hv : ∀ n, CommitName n → version pkg n = some (['v'] ++ pkg ++ ['('] ++ n.take 10 ++ [')']) := by
    intro n hn
    rw [version, sliceTo_ascii _ _ fun c hc => (hex_plain hn c hc).1, if_pos hn.1]
    rfl
  have hne : String.ofList (name ++ ['\n']) ≠ "" := by
    intro he
    have := congrArg String.toList he
    simp at this
  refine ⟨name, ?_, rfl, hv name h, fun name' h' => ?_⟩
  · rw [gitPrints, commitHash_eq hne, String.toList_ofList, List.takeWhile_append_of_pos fun c hc => by simpa using (hex_plain h c hc).2]
    simp
  · rw [hv name h, hv name' h']
    simp

example : CommitName "36f43f1a0b36f43f1a0b36f43f1a0b36f43f1a0b".toList := by unfold CommitName; decide +kernel

/-- C172 fails. In a repository without a commit git prints `HEAD` and fails. The exit status is not looked at: the build succeeds, and the broker panics
whenever it is started, before it looks at its arguments. -/
theorem C172_no_commit_fails (pkg : List Char) :
    ∃ commit, commitHash (some (gitPrints "HEAD".toList)) = some commit ∧ version pkg commit = none := by
  refine ⟨"HEAD".toList, ?_, ?_⟩
  · rw [gitPrints, commitHash_eq (by decide +kernel)]
    decide +kernel
  · have : sliceTo 10 "HEAD".toList = none := by decide +kernel
    rw [version, this]
    rfl

/-- C172 fails. Without git, or outside of a repository (where git prints nothing), there is no build at all. -/
theorem C172_no_repository_fails : commitHash none = none ∧ commitHash (some []) = none := by
  refine ⟨rfl, ?_⟩
  decide +kernel

/-- Of what git may print in ASCII, the broker starts exactly with first lines of at least ten characters. -/
theorem C172_starts_iff (pkg : List Char) (s : String) (hs : s ≠ "") (ha : ∀ c ∈ s.toList, c.utf8Size = 1) :
    (∃ commit v, commitHash (some (utf8 s)) = some commit ∧ version pkg commit = some v) ↔ 10 ≤ (s.toList.takeWhile (· ≠ '\n')).length := by
  rw [commitHash_eq hs]
  have h1 : ∀ c ∈ s.toList.takeWhile (· ≠ '\n'), c.utf8Size = 1 := fun c hc => ha c ((List.takeWhile_prefix _).subset hc)
  constructor
  · rintro ⟨commit, v, hc, hv⟩
    injection hc with hc
    subst hc
    rw [version, sliceTo_ascii _ _ h1] at hv
    by_cases h : 10 ≤ (s.toList.takeWhile (· ≠ '\n')).length
    · exact h
    · rw [if_neg h] at hv; cases hv
  · intro h
    refine ⟨_, ['v'] ++ pkg ++ ['('] ++ (s.toList.takeWhile (· ≠ '\n')).take 10 ++ [')'], rfl, ?_⟩
    · rw [version, sliceTo_ascii _ _ h1, if_pos h]; rfl

example : ("0123456789\n" : String) ≠ "" ∧ ∀ c ∈ ("0123456789\n" : String).toList, c.utf8Size = 1 := by decide +kernel

end Ratel
