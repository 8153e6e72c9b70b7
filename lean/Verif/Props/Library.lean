/-
C140, C141: the public types that the broker does not use itself.
-/
import Verif.Proofs.Library
import Verif.Props.Handler

namespace Ratel

open Spec

/-! ### C140 -/

/-- C140. `MqttBytesStream` is `MqttBytesReadStream` and `MqttBytesWriteStream` side by side: any calls in any order return what they return on
separate halves, and leave both halves as they would be. -/
theorem C140_side_by_side (al : Alloc) (readSize writeSize : Nat) (segs : List (List UInt8)) (fin : Ending) (script : List WriteOutcome)
    (ops : List StreamOp) :
    ∃ rs rd wr, separately al ops (.new readSize segs fin) (.new writeSize script) = (rs, rd, wr)
      ∧ StreamOp.calls al ops (.new readSize writeSize segs fin script)
        = (rs, ⟨rd.buf, wr.buf, rd.segs, rd.fin, wr.wire, wr.script⟩) :=
  ⟨_, _, _, rfl, BStream.calls_separately al ops (.new readSize segs fin) (.new writeSize script)⟩

/-- A release of `bytes` for the examples. -/
def plainAlloc : Alloc := ⟨false, false, fun _ _ _ => 0, fun off _ _ => off⟩

example : StreamOp.calls plainAlloc [.getU8, .putU16 258, .getString, .putString "ok", .finishPacket, .getU8]
    (.new 16 16 [[7, 0, 2], [104, 105]] .eof [.accept 2])
    = ([.ok (.byte 7), .ok .unit, .ok (.text "hi"), .ok .unit, .ok .unit, .err .connectionReset],
      ⟨⟨5, 11, []⟩, ⟨3, 13, [2, 111, 107]⟩, [], .eof, [1, 2, 0], []⟩) := by decide +kernel

/-! ### C141 -/

/-- The service after changes. -/
def serviceAfter (changes : List SessionChange) : SessionService SessionRepository :=
  changes.foldl (fun s ch => match ch with
    | .insert x => s.insert inMemory x
    | .delete id => (s.delete inMemory id).2) (.new .default)

theorem serviceAfter_snoc (changes : List SessionChange) (ch : SessionChange) : serviceAfter (changes ++ [ch]) =
    match ch with
    | .insert x => (serviceAfter changes).insert inMemory x
    | .delete id => ((serviceAfter changes).delete inMemory id).2 := by
  unfold serviceAfter
  rw [List.foldl_append]
  cases ch <;> rfl

theorem sessionOf_snoc (id : ClientId) (changes : List SessionChange) (ch : SessionChange) : sessionOf id (changes ++ [ch]) =
    match ch with
    | .insert s => if s.clientId = id then some s else sessionOf id changes
    | .delete id' => if id' = id then none else sessionOf id changes := by
  unfold sessionOf
  rw [List.foldl_append]
  cases ch <;> rfl

theorem list_snoc_induction {α : Type} {P : List α → Prop} (h0 : P []) (h : ∀ l a, P l → P (l ++ [a])) (l : List α) : P l := by
  suffices H : ∀ r : List α, P r.reverse by simpa using H l.reverse
  intro r
  induction r with
  | nil => exact h0
  | cons a r ih => rw [List.reverse_cons]; exact h _ _ ih

/-- C141. After any insertions and deletions, the service knows for each client the session inserted last, unless it was deleted since: `get`
and `delete` return it, `exists` tells whether there is one, `count` tells how many clients have one. -/
theorem C141_sessions (changes : List SessionChange) :
    (∀ id, (serviceAfter changes).get inMemory id = sessionOf id changes
      ∧ (serviceAfter changes).exists inMemory id = (sessionOf id changes).isSome
      ∧ ((serviceAfter changes).delete inMemory id).1 = sessionOf id changes)
    ∧ ∃ ids : List ClientId, ids.Nodup ∧ (∀ id, id ∈ ids ↔ (sessionOf id changes).isSome) ∧ (serviceAfter changes).count inMemory = ids.length := by
  have hget : ∀ id, (serviceAfter changes).repository.sessions.get? id = sessionOf id changes := by
    intro id
    induction changes using list_snoc_induction with
    | h0 => rfl
    | h changes ch ih =>
      rw [serviceAfter_snoc, sessionOf_snoc]
      cases ch with
      | insert s =>
        show (AssocMap.insert _ _ _).get? id = _
        rw [AssocMap.get?_insert, ih]
        simp only
        by_cases h : id = s.clientId
        · rw [if_pos h, if_pos h.symm]
        · rw [if_neg h, if_neg fun h' => h h'.symm]
      | delete id' =>
        show (AssocMap.erase _ _).get? id = _
        rw [AssocMap.get?_erase, ih]
        simp only
        by_cases h : id = id'
        · rw [if_pos h, if_pos h.symm]
        · rw [if_neg h, if_neg fun h' => h h'.symm]
  have hnodup : (serviceAfter changes).repository.sessions.keys.Nodup := by
    clear hget
    induction changes using list_snoc_induction with
    | h0 => exact List.nodup_nil
    | h changes ch ih =>
      rw [serviceAfter_snoc]
      cases ch with
      | insert s => exact AssocMap.nodup_insert ih _ _
      | delete id' => exact AssocMap.nodup_erase ih _
  refine ⟨fun id => ⟨hget id, ?_, hget id⟩, (serviceAfter changes).repository.sessions.keys, hnodup, fun id => ?_, ?_⟩
  · show Option.isSome _ = _
    rw [hget]
  · rw [AssocMap.mem_keys_iff, hget]
  · show List.length _ = _
    rw [AssocMap.keys, List.length_map]

example : (serviceAfter [.insert ⟨"a", 0, false, 1, 60, 0⟩, .insert ⟨"b", 0, false, 2, 60, 0⟩, .insert ⟨"a", 0, true, 3, 60, 0⟩, .delete "b"]).get
    inMemory "a" = some ⟨"a", 0, true, 3, 60, 0⟩ := by decide +kernel
example : (serviceAfter [.insert ⟨"a", 0, false, 1, 60, 0⟩, .insert ⟨"b", 0, false, 2, 60, 0⟩, .insert ⟨"a", 0, true, 3, 60, 0⟩]).count inMemory
    = 2 := by decide +kernel

end Ratel
