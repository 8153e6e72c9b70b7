/-
C126, C150, C151: the password tool, call by call, and several runs of it at the same time.
-/
import Verif.Proofs.Desk
import Verif.Props.Tool

namespace Ratel

open Spec Passwd

/-! ### C126 -/

/-- C126, what holds, however reads and writes are split and whichever of them fails: while the tool runs, and when it is interrupted, the
file holds the old content or a beginning of the new one; when it is done, the new one. -/
theorem C126_pieces_partial (ci : CaseEq) (t : List Char) (tasks : Nat → List Char × Action) (i : Nat) (os : List Outcome) (d : Desk)
    (hd : d = Desk.run ci (Desk.start (some (bytesOf t)) tasks) (os.map (i, ·))) :
    (d.file = some (bytesOf t) ∨ ∃ k, d.file = some ((bytesOf (Passwd.run ci (tasks i).1 (tasks i).2 t)).take k))
    ∧ ((d.jobs i).stage = .finished → d.file = some (bytesOf (Passwd.run ci (tasks i).1 (tasks i).2 t))) := by
  have h := Desk.alone_run os (Desk.alone_start ci t tasks i)
  obtain ⟨g1, g2⟩ := Desk.run_task ci (os.map (i, ·)) (Desk.start (some (bytesOf t)) tasks) i
  rw [← hd] at h g1 g2
  have g1 : (d.jobs i).user = (tasks i).1 := g1
  have g2 : (d.jobs i).action = (tasks i).2 := g2
  rw [← g1, ← g2]
  unfold Alone at h
  constructor
  · split at h
    · exact .inl h.1
    · exact .inl h.1
    · rename_i c n _
      obtain ⟨rfl, h2, _⟩ := h
      exact .inr ⟨n, h2⟩
    · exact .inr ⟨_, by rw [h, List.take_length]⟩
    · exact h
  · intro hs
    rw [hs] at h
    exact h

/-! ### C151 -/

/-- One run of the tool. -/
def oneTask (user : List Char) (action : Action) : Nat → List Char × Action := fun _ => (user, action)

theorem set_updated (ci : CaseEq) (user hash t : List Char) : updated ci user (.set hash) t = some (Passwd.run ci user (.set hash) t) := by
  have : ∃ x, updated ci user (.set hash) t = some x := by
    unfold updated
    split <;> exact ⟨_, rfl⟩
  obtain ⟨x, hx⟩ := this
  simp [Passwd.run, hx]

/-- C151 is violated: setting any password in any file can fail (say, for lack of space) and leave any beginning of the new content, among
them the empty file, from which all users are gone. -/
theorem C151_failed_fails (ci : CaseEq) (t user hash : List Char) (k : Nat) :
    ∃ os : List Outcome, ((Desk.run ci (Desk.start (some (bytesOf t)) (oneTask user (.set hash))) (os.map (0, ·))).jobs 0).stage = .panicked
      ∧ (Desk.run ci (Desk.start (some (bytesOf t)) (oneTask user (.set hash))) (os.map (0, ·))).file
        = some ((bytesOf (Passwd.run ci user (.set hash) t)).take k) := by
  obtain ⟨os1, _, h1, h2⟩ := Desk.reads ci (d := Desk.start (some (bytesOf t)) (oneTask user (.set hash))) (i := 0) (t := t) rfl rfl (set_updated ci user hash t)
  obtain ⟨h3, h4⟩ := Desk.opens ci h2
  obtain ⟨os2, h5, h6⟩ := Desk.writes_some ci h4 h3 k
  refine ⟨os1 ++ .moves 0 :: os2, ?_⟩
  have e : (os1 ++ .moves 0 :: os2).map (fun o => ((0 : Nat), o)) = os1.map (0, ·) ++ ([(0, .moves 0)] ++ os2.map (0, ·)) := by simp
  rw [e, Desk.run_append, Desk.run_append]
  exact ⟨h6, h5⟩

/-- C151, exactly: what a failed run that sets a password can leave in the file is the old content or a beginning of the new one. -/
theorem C151_failed_iff (ci : CaseEq) (t user hash : List Char) (f : Option (List UInt8)) :
    (∃ os : List Outcome, ((Desk.run ci (Desk.start (some (bytesOf t)) (oneTask user (.set hash))) (os.map (0, ·))).jobs 0).stage = .panicked
      ∧ (Desk.run ci (Desk.start (some (bytesOf t)) (oneTask user (.set hash))) (os.map (0, ·))).file = f)
    ↔ f = some (bytesOf t) ∨ ∃ k, f = some ((bytesOf (Passwd.run ci user (.set hash) t)).take k) := by
  constructor
  · rintro ⟨os, _, rfl⟩
    exact (C126_pieces_partial ci t (oneTask user (.set hash)) 0 os _ rfl).1
  · rintro (rfl | ⟨k, rfl⟩)
    · exact ⟨[.fails], rfl, rfl⟩
    · exact C151_failed_fails ci t user hash k

/-- C151, the part that holds: a run that fails because the file does not exist or is not text leaves it as it is. Missing: calls that fail
once the file has been truncated. -/
theorem C151_unreadable_partial (ci : CaseEq) (file : Option (List UInt8)) (hf : ∀ bytes, file = some bytes → fromUtf8 bytes = none)
    (tasks : Nat → List Char × Action) (xs : List (Nat × Outcome)) :
    (Desk.run ci (Desk.start file tasks) xs).file = file ∧ ∀ i, ((Desk.run ci (Desk.start file tasks) xs).jobs i).stage ≠ .finished := by
  suffices h : ∀ d : Desk, d.file = file → (∀ i, (d.jobs i).stage = .panicked ∨ ∃ got, (d.jobs i).stage = .reading got ∧ ∀ bytes, file = some bytes → got <+: bytes) →
      (Desk.run ci d xs).file = file ∧ ∀ i, ((Desk.run ci d xs).jobs i).stage = .panicked
        ∨ ∃ got, ((Desk.run ci d xs).jobs i).stage = .reading got ∧ ∀ bytes, file = some bytes → got <+: bytes by
    obtain ⟨h1, h2⟩ := h (Desk.start file tasks) rfl fun i => .inr ⟨[], rfl, fun _ _ => List.nil_prefix⟩
    refine ⟨h1, fun i => ?_⟩
    rcases h2 i with h | ⟨got, h, _⟩ <;> rw [h] <;> simp
  induction xs with
  | nil => exact fun d h1 h2 => ⟨h1, h2⟩
  | cons x xs ih =>
    intro d h1 h2
    obtain ⟨i, o⟩ := x
    have key : (stepJob ci d.file (d.jobs i) o).1 = file ∧ ((stepJob ci d.file (d.jobs i) o).2 = .panicked
        ∨ ∃ got, (stepJob ci d.file (d.jobs i) o).2 = .reading got ∧ ∀ bytes, file = some bytes → got <+: bytes) := by
      rw [h1]
      rcases h2 i with h | ⟨got, h, hp⟩
      · cases o <;> simp [stepJob, h]
      · cases o with
        | fails => simp [stepJob, h]
        | moves k =>
          cases file with
          | none => simp [stepJob, h]
          | some bytes =>
            have hp := hp bytes rfl
            obtain ⟨r, rfl⟩ := hp
            simp only [stepJob, h, List.drop_left]
            split
            · rename_i h0
              refine ⟨rfl, .inl ?_⟩
              cases r with
              | nil => rw [List.append_nil] at hf; simp [afterRead, hf got rfl]
              | cons a as => simp at h0
            · refine ⟨rfl, .inr ⟨_, rfl, fun b hb => ?_⟩⟩
              cases hb
              exact (List.prefix_append_right_inj got).mpr (List.take_prefix _ _)
    refine ih (Desk.step ci d (i, o)) (by rw [(Desk.step_own ci d i o).2]; exact key.1) fun j => ?_
    by_cases hj : j = i
    · subst hj
      rw [(Desk.step_own ci d j o).1]
      exact key.2
    · rw [Desk.step_other ci d hj]
      exact h2 j

/-! ### C150 -/

/-- Two runs of the tool. -/
def twoTasks (user₁ : List Char) (action₁ : Action) (user₂ : List Char) (action₂ : Action) : Nat → List Char × Action :=
  fun i => if i = 0 then (user₁, action₁) else (user₂, action₂)

/-- C150, the part that holds: runs of the tool that do not overlap take effect one after the other, in their order; however reads and writes
are split. -/
theorem C150_serial_partial (ci : CaseEq) (t : List Char) (tasks : Nat → List Char × Action) (blocks : List (Nat × List Outcome))
    (hn : (blocks.map Prod.fst).Nodup)
    (hfin : ∀ b ∈ blocks, ((Desk.run ci (Desk.start (some (bytesOf t)) tasks) (blocks.flatMap fun b => b.2.map (b.1, ·))).jobs b.1).stage = .finished) :
    (Desk.run ci (Desk.start (some (bytesOf t)) tasks) (blocks.flatMap fun b => b.2.map (b.1, ·))).file
      = some (bytesOf (serially ci (blocks.map fun b => tasks b.1) t)) := by
  suffices h : ∀ (d : Desk) (t : List Char), d.file = some (bytesOf t) → (∀ b ∈ blocks, d.jobs b.1 = ⟨(tasks b.1).1, (tasks b.1).2, .reading []⟩) →
      (∀ b ∈ blocks, ((Desk.run ci d (blocks.flatMap fun b => b.2.map (b.1, ·))).jobs b.1).stage = .finished) →
      (Desk.run ci d (blocks.flatMap fun b => b.2.map (b.1, ·))).file = some (bytesOf (serially ci (blocks.map fun b => tasks b.1) t)) from
    h _ t rfl (fun _ _ => rfl) hfin
  clear hfin
  induction blocks with
  | nil => exact fun d t h _ _ => h
  | cons b blocks ih =>
    intro d t h1 h2 h3
    obtain ⟨i, os⟩ := b
    rw [List.map_cons, List.nodup_cons] at hn
    obtain ⟨hi, hn⟩ := hn
    simp only [List.flatMap_cons] at h3 ⊢
    rw [Desk.run_append]
    have hother : ∀ x ∈ blocks.flatMap fun b => b.2.map (b.1, ·), x.1 ≠ i := by
      intro x hx he
      obtain ⟨b, hb, hx⟩ := List.mem_flatMap.mp hx
      obtain ⟨o, _, rfl⟩ := List.mem_map.mp hx
      exact hi (List.mem_map.mpr ⟨b, hb, he⟩)
    have hstage : ((Desk.run ci d (os.map (i, ·))).jobs i).stage = .finished := by
      have := h3 (i, os) List.mem_cons_self
      rw [Desk.run_append, Desk.run_other ci hother] at this
      exact this
    have hal : Alone ci t d.file (d.jobs i) := by
      rw [h1, h2 (i, os) List.mem_cons_self]
      exact ⟨rfl, List.nil_prefix⟩
    have hfile := Desk.alone_run os hal
    obtain ⟨g1, g2⟩ := Desk.run_task ci (os.map (i, ·)) d i
    unfold Alone at hfile
    rw [hstage, g1, g2, h2 (i, os) List.mem_cons_self] at hfile
    refine ih hn _ _ hfile (fun b hb => ?_) fun b hb => ?_
    · rw [Desk.run_other ci _ d, h2 b (List.mem_cons_of_mem _ hb)]
      intro x hx he
      obtain ⟨o, _, rfl⟩ := List.mem_map.mp hx
      exact hi (List.mem_map.mpr ⟨b, hb, he.symm⟩)
    · have := h3 b (List.mem_cons_of_mem _ hb)
      rwa [Desk.run_append] at this

/-- Both runs read before either opens the file. -/
theorem both_read (ci : CaseEq) {t user₁ user₂ new₁ new₂ : List Char} {action₁ action₂ : Action} (h₁ : updated ci user₁ action₁ t = some new₁)
    (h₂ : updated ci user₂ action₂ t = some new₂) :
    ∃ xs : List (Nat × Outcome), (∀ x ∈ xs, x.2 ≠ .fails)
      ∧ ((Desk.run ci (Desk.start (some (bytesOf t)) (twoTasks user₁ action₁ user₂ action₂)) xs).jobs 0).stage = .opening (bytesOf new₁)
      ∧ ((Desk.run ci (Desk.start (some (bytesOf t)) (twoTasks user₁ action₁ user₂ action₂)) xs).jobs 1).stage = .opening (bytesOf new₂) := by
  obtain ⟨os1, f1, g1, g2⟩ := Desk.reads ci (d := Desk.start (some (bytesOf t)) (twoTasks user₁ action₁ user₂ action₂)) (i := 0) (t := t) (new := new₁) rfl rfl h₁
  have hne : ∀ {i j : Nat} (os : List Outcome), i ≠ j → ∀ x ∈ os.map (i, ·), x.1 ≠ j := by
    intro i j os h x hx
    obtain ⟨o, _, rfl⟩ := List.mem_map.mp hx
    exact h
  have hj1 := Desk.run_other ci (hne (i := 0) (j := 1) os1 (by decide)) (Desk.start (some (bytesOf t)) (twoTasks user₁ action₁ user₂ action₂))
  obtain ⟨os2, f2, g3, g4⟩ := Desk.reads ci (i := 1) (t := t) (new := new₂) g1 (by rw [hj1]; rfl) (by rw [hj1]; exact h₂)
  refine ⟨os1.map (0, ·) ++ os2.map (1, ·), ?_, ?_⟩
  · intro x hx
    rcases List.mem_append.mp hx with hx | hx
    · obtain ⟨o, ho, rfl⟩ := List.mem_map.mp hx; exact f1 o ho
    · obtain ⟨o, ho, rfl⟩ := List.mem_map.mp hx; exact f2 o ho
  · rw [Desk.run_append]
    exact ⟨by rw [Desk.run_other ci (hne os2 (by decide))]; exact g2, g4⟩

/-- C150 is violated: of two passwords set at the same time one can be lost. If both runs read the file before either writes it, then at
the end the first user's entry is as if the first run had not been made, though both ended well and no call failed. -/
theorem C150_lost_fails (sv : StdVersion) (ci : CaseEq) (hci : CaseOk ci) (es : List Entry) (h : WellFormed es)
    (user₁ hash₁ user₂ hash₂ : List Char) (hok : (Entry.mk user₂ hash₂).Ok) (hne : NoneEndsLike ci user₂ es) (hu : user₁ ≠ user₂) :
    ∃ (xs : List (Nat × Outcome)) (d : Desk), d = Desk.run ci (Desk.start (some (bytesOf (fileOf es))) (twoTasks user₁ (.set hash₁) user₂ (.set hash₂))) xs
      ∧ (∀ x ∈ xs, x.2 ≠ .fails) ∧ (d.jobs 0).stage = .finished ∧ (d.jobs 1).stage = .finished
      ∧ ∃ text f, d.file = some (bytesOf text) ∧ FileIdentityManager.new sv text = some f
        ∧ ∀ cred : List Char, f.passwordsByUsername.get? (String.ofList user₁) = some (String.ofList cred) ↔ ⟨user₁, cred⟩ ∈ es := by
  obtain ⟨xs, f0, g1, g2⟩ := both_read ci (set_updated ci user₁ hash₁ (fileOf es)) (set_updated ci user₂ hash₂ (fileOf es))
  generalize hd1 : Desk.run ci (Desk.start (some (bytesOf (fileOf es))) (twoTasks user₁ (.set hash₁) user₂ (.set hash₂))) xs = d1 at g1 g2
  have hne' : ∀ {i j : Nat} (os : List Outcome), i ≠ j → ∀ x ∈ os.map (i, ·), x.1 ≠ j := by
    intro i j os h x hx
    obtain ⟨o, _, rfl⟩ := List.mem_map.mp hx
    exact h
  obtain ⟨a1, a2⟩ := Desk.opens ci g1
  obtain ⟨os1, f1, b1, b2⟩ := Desk.writes ci a2 a1
  have e1 : ∀ j, 0 ≠ j → (Desk.run ci (Desk.run ci d1 [(0, .moves 0)]) (os1.map (0, ·))).jobs j = d1.jobs j := fun j hj => by
    rw [Desk.run_other ci (hne' os1 hj), Desk.run_other ci (by intro x hx; rw [List.mem_singleton.mp hx]; exact hj)]
  generalize hd2 : Desk.run ci (Desk.run ci d1 [(0, .moves 0)]) (os1.map (0, ·)) = d2 at b1 b2 e1
  obtain ⟨c1, c2⟩ := Desk.opens ci (d := d2) (i := 1) (by rw [e1 1 (by decide)]; exact g2)
  obtain ⟨os2, f2, k1, k2⟩ := Desk.writes ci c2 c1
  obtain ⟨f, hf, hl⟩ := C60_others_partial sv ci hci es h user₂ hash₂ hok hne
  refine ⟨xs ++ ([(0, .moves 0)] ++ os1.map (0, ·)) ++ ([(1, .moves 0)] ++ os2.map (1, ·)), _, rfl, ?_, ?_⟩
  · intro x hx
    simp only [List.mem_append, List.mem_singleton, List.mem_map] at hx
    rcases hx with (hx | rfl | ⟨o, ho, rfl⟩) | rfl | ⟨o, ho, rfl⟩
    · exact f0 x hx
    · simp
    · exact f1 o ho
    · simp
    · exact f2 o ho
  · simp only [Desk.run_append, hd1, hd2]
    refine ⟨?_, k2, _, f, by rw [k1]; simp, hf, fun cred => hl user₁ cred hu⟩
    rw [Desk.run_other ci (hne' os2 (by decide)), Desk.run_other ci (by intro x hx; rw [List.mem_singleton.mp hx]; decide)]
    exact b2

/-- C150 is violated also in another way: if both runs open the file before either writes it, the longer content can stick out behind the
shorter one. The result need not be a password file at all. -/
theorem C150_mixed_fails (ci : CaseEq) (t user₁ user₂ new₁ new₂ : List Char) (action₁ action₂ : Action)
    (h₁ : updated ci user₁ action₁ t = some new₁) (h₂ : updated ci user₂ action₂ t = some new₂) :
    ∃ (xs : List (Nat × Outcome)) (d : Desk), d = Desk.run ci (Desk.start (some (bytesOf t)) (twoTasks user₁ action₁ user₂ action₂)) xs
      ∧ (∀ x ∈ xs, x.2 ≠ .fails) ∧ (d.jobs 0).stage = .finished ∧ (d.jobs 1).stage = .finished
      ∧ d.file = some (bytesOf new₂ ++ (bytesOf new₁).drop (bytesOf new₂).length) := by
  obtain ⟨xs, f0, g1, g2⟩ := both_read ci h₁ h₂
  generalize hd1 : Desk.run ci (Desk.start (some (bytesOf t)) (twoTasks user₁ action₁ user₂ action₂)) xs = d1 at g1 g2
  have hne' : ∀ {i j : Nat} (os : List Outcome), i ≠ j → ∀ x ∈ os.map (i, ·), x.1 ≠ j := by
    intro i j os h x hx
    obtain ⟨o, _, rfl⟩ := List.mem_map.mp hx
    exact h
  have hne1 : ∀ {i j : Nat}, i ≠ j → ∀ x ∈ [(i, Outcome.moves 0)], x.1 ≠ j := by
    intro i j h x hx
    rw [List.mem_singleton.mp hx]
    exact h
  obtain ⟨_, a2⟩ := Desk.opens ci g1
  have g2' : ((Desk.run ci d1 [(0, .moves 0)]).jobs 1).stage = .opening (bytesOf new₂) := by rw [Desk.run_other ci (hne1 (by decide))]; exact g2
  generalize hd2 : Desk.run ci d1 [(0, .moves 0)] = d2 at a2 g2'
  obtain ⟨c1, c2⟩ := Desk.opens ci g2'
  have a2' : ((Desk.run ci d2 [(1, .moves 0)]).jobs 0).stage = .writing (bytesOf new₁) 0 := by rw [Desk.run_other ci (hne1 (by decide))]; exact a2
  generalize hd3 : Desk.run ci d2 [(1, .moves 0)] = d3 at c1 c2 a2'
  obtain ⟨os1, f1, b1, b2⟩ := Desk.writes ci a2' c1
  have c2' : ((Desk.run ci d3 (os1.map (0, ·))).jobs 1).stage = .writing (bytesOf new₂) 0 := by rw [Desk.run_other ci (hne' os1 (by decide))]; exact c2
  generalize hd4 : Desk.run ci d3 (os1.map (0, ·)) = d4 at b1 b2 c2'
  obtain ⟨os2, f2, k1, k2⟩ := Desk.writes ci c2' b1
  refine ⟨xs ++ [(0, .moves 0)] ++ [(1, .moves 0)] ++ os1.map (0, ·) ++ os2.map (1, ·), _, rfl, ?_, ?_⟩
  · intro x hx
    simp only [List.mem_append, List.mem_singleton, List.mem_map] at hx
    rcases hx with (((hx | rfl) | rfl) | ⟨o, ho, rfl⟩) | ⟨o, ho, rfl⟩
    · exact f0 x hx
    · simp
    · simp
    · exact f1 o ho
    · exact f2 o ho
  · simp only [Desk.run_append, hd1, hd2, hd3, hd4]
    refine ⟨?_, k2, ?_⟩
    · rw [Desk.run_other ci (hne' os2 (by decide))]
      exact b2
    · rw [k1]
      simp

/-! ### Examples -/

-- C151: no space left after six bytes
example : (Desk.run asciiCase (Desk.start (some (bytesOf "bob:h1\n".toList)) (oneTask "amy".toList (.set "h2".toList)))
      ([.moves 99, .moves 0, .moves 0, .moves 9, .fails].map (0, ·))).file = some (bytesOf "bob:h1\namy".toList) := by
  decide +kernel

-- and a broker does not start with that file
example : FileIdentityManager.new ⟨true⟩ "bob:h1\namy".toList = none := by decide +kernel

-- C150: one run after the other, with reads and writes of one byte
example : (Desk.run asciiCase (Desk.start (some (bytesOf "b:1\n".toList)) (twoTasks "a".toList (.set "2".toList) "b".toList (.set "3".toList)))
      ((List.replicate 20 (0, .moves 0)) ++ List.replicate 20 (1, .moves 0))).file = some (bytesOf "b:3\na:2\n".toList) := by
  decide +kernel

-- C150: a new user, and a shorter hash for another, at the same time: what is left is not a password file
example : (Desk.run asciiCase (Desk.start (some (bytesOf "bob:hash1\n".toList)) (twoTasks "amy".toList (.set "hash2".toList) "bob".toList (.set "h".toList)))
      [(0, .moves 99), (0, .moves 0), (1, .moves 99), (1, .moves 0), (0, .moves 0), (1, .moves 0), (0, .moves 99), (1, .moves 99), (0, .moves 0), (1, .moves 0)]).file
    = some (bytesOf "bob:h\nsh1\namy:hash2\n".toList)
    ∧ FileIdentityManager.new ⟨true⟩ "bob:h\nsh1\namy:hash2\n".toList = none := by
  decide +kernel

-- C150: amy's first password is lost while the one of rebob is changed; amy is unknown to the broker afterwards
example : ∃ (xs : List (Nat × Outcome)) (d : Desk), d = Desk.run asciiCase (Desk.start (some (bytesOf (fileOf rebob)))
        (twoTasks "amy".toList (.set "3".toList) "rebob".toList (.set "2".toList))) xs
      ∧ (∀ x ∈ xs, x.2 ≠ .fails) ∧ (d.jobs 0).stage = .finished ∧ (d.jobs 1).stage = .finished
      ∧ ∃ text f, d.file = some (bytesOf text) ∧ FileIdentityManager.new ⟨true⟩ text = some f
        ∧ ∀ cred : List Char, f.passwordsByUsername.get? (String.ofList "amy".toList) = some (String.ofList cred) ↔ ⟨"amy".toList, cred⟩ ∈ rebob :=
  C150_lost_fails ⟨true⟩ asciiCase asciiCase_ok rebob rebob_wellFormed "amy".toList "3".toList "rebob".toList "2".toList
    ⟨by decide +kernel, by decide +kernel, by decide +kernel, by decide +kernel, fun x hx => by
      have := congrArg List.getLast? hx
      simp at this⟩
    (fun e he hne => by
      simp only [rebob, List.mem_singleton] at he
      subst he
      exact absurd rfl hne)
    (by decide +kernel)

end Ratel
