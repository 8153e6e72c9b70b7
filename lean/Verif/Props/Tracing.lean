/-
C185: the records of the transport tell the lengths of texts, not the texts.
-/
import Verif.Proofs.Tracing
import Verif.Props.RustLog
import Verif.Props.System

namespace Ratel

open Spec Sys Tracing

/-- C185. Making records changes nothing: the same packet is read or the same error found, and the same bytes are left. -/
theorem C185_unchanged (env : Env) (rd : RStream) (l : List Note) :
    letI := RStream.source env.alloc
    ((Tracing.readPacket env.profile : T RStream ControlPacket) (rd, l)).1 = ((Decoder.readPacket env.profile : M RStream ControlPacket) rd).1
    ∧ ((Tracing.readPacket env.profile : T RStream ControlPacket) (rd, l)).2.1 = ((Decoder.readPacket env.profile : M RStream ControlPacket) rd).2 := by
  letI := RStream.source env.alloc
  obtain ⟨r, s', l', h1, h2, _⟩ := packet_tells (exact_stream env.alloc) env.profile rd l
  rw [h1, h2]
  exact ⟨rfl, rfl⟩

/-- C185. When a read task has read a packet, the records made are for each of its texts, in order, its length in bytes; for a CONNECT there is one more before
them, for the name of the protocol. -/
theorem C185_lengths (env : Env) (s : Sys) (c : ConnId) (p : ControlPacket) (rd : RStream) (ho : (s.conns c).outbox = none)
    (hp : (s.conns c).phase = .first ∨ ∃ id, (s.conns c).phase = .running id)
    (h : letI := RStream.source env.alloc; (Decoder.readPacket env.profile : M RStream ControlPacket) (s.conns c).rd = (.ok p, rd)) :
    (WithProtocol p → ∃ n, readNotes env s c = announced (n :: textLengths p)) ∧ (¬ WithProtocol p → readNotes env s c = announced (textLengths p)) := by
  letI := RStream.source env.alloc
  obtain ⟨r, s', l', h1, h2, _, h4⟩ := packet_tells (exact_stream env.alloc) env.profile (s.conns c).rd []
  have h : (Decoder.readPacket env.profile : M RStream ControlPacket) (s.conns c).rd = (.ok p, rd) := h
  rw [h] at h2
  obtain ⟨ns, ⟨name, rfl, hn, hb⟩, hl⟩ := h4 p (by cases h2; rfl)
  have hnotes : readNotes env s c = announced (name ++ textLengths p) := by
    have : readNotes env s c = ((Tracing.readPacket env.profile : T RStream ControlPacket) ((s.conns c).rd, [])).2.2 := by
      unfold readNotes
      rcases hp with hp | ⟨id, hp⟩ <;> simp only [ho, hp]
    rw [this, h1, hl]
    rfl
  constructor
  · intro h
    obtain ⟨n, rfl⟩ := List.length_eq_one_iff.mp (hn h)
    exact ⟨n, hnotes⟩
  · intro h
    rw [hnotes, hb h]
    rfl

/-- C185. Whatever is read, the records are of texts one after the other, each with its length; only the last may be without, if it could not be read. -/
theorem C185_whole (env : Env) (s : Sys) (c : ConnId) :
    ∃ ns tail, readNotes env s c = announced ns ++ tail ∧ (tail = [] ∨ tail = [.parsing]) := by
  letI := RStream.source env.alloc
  obtain ⟨r, s', l', h1, _, ⟨ns, tail, h3, h3'⟩, _⟩ := packet_tells (exact_stream env.alloc) env.profile (s.conns c).rd []
  unfold readNotes
  split
  · exact ⟨ns, tail, by rw [h1, h3]; rfl, h3'⟩
  · exact ⟨ns, tail, by rw [h1, h3]; rfl, h3'⟩
  · exact ⟨[], [], rfl, .inl rfl⟩

theorem message_inj {a b : Note} (h : a.message = b.message) : a = b := by
  cases a <;> cases b
  case size.size n m =>
    unfold Note.message at h
    simp only [List.append_assoc] at h
    have h := List.append_cancel_left h
    obtain ⟨h1, _⟩ := cut_first (c := ' ') (numeral_plain (by decide) _ (.inr (.inr (.inl rfl)))) (numeral_plain (by decide) _ (.inr (.inr (.inl rfl)))) h
    rw [numeral_inj (by decide) _ _ h1]
  all_goals first
    | rfl
    | (exfalso; revert h; decide +kernel)
    | (exfalso
       unfold Note.message at h
       simp only [List.append_assoc] at h
       first
         | exact diverge_ne (r' := []) (by decide +kernel) (h.trans (List.append_nil _).symm)
         | exact diverge_ne (r := []) (by decide +kernel) ((List.append_nil _).trans h))

/-- C185. The lengths can be told from the text of the records. -/
theorem C185_read_back (ns ms : List Nat) (h : (announced ns).map Note.message = (announced ms).map Note.message) : ns = ms := by
  have h := List.map_inj_right (f := Note.message) (fun _ _ => message_inj) |>.mp h
  induction ns generalizing ms with
  | nil => cases ms with
    | nil => rfl
    | cons m ms => cases h
  | cons n ns ih => cases ms with
    | nil => cases h
    | cons m ms =>
      simp only [announced, announce, List.flatMap_cons, List.cons_append, List.nil_append, List.cons.injEq, Note.size.injEq, true_and] at h
      rw [h.1, ih ms (by rw [show announced ns = announced ms from h.2]) h.2]

/-- C185. So the length of the password of every CONNECT that gives one is the last thing told of it. -/
theorem C185_password (env : Env) (s : Sys) (c : ConnId) (q : ConnectPacket) (pw : String) (rd : RStream) (ho : (s.conns c).outbox = none)
    (hp : (s.conns c).phase = .first) (hpw : q.password = some pw)
    (h : letI := RStream.source env.alloc; (Decoder.readPacket env.profile : M RStream ControlPacket) (s.conns c).rd = (.ok (.connect q), rd)) :
    ∃ pre, readNotes env s c = pre ++ [.parsing, .size (strLen pw), .buffer] := by
  obtain ⟨n, hn⟩ := (C185_lengths env s c _ rd ho (.inl hp) h).1 trivial
  refine ⟨announced (n :: ([strLen q.clientId] ++ (q.userName.map strLen).toList)), ?_⟩
  rw [hn, textLengths, hpw, show [Note.parsing, .size (strLen pw), .buffer] = announced [strLen pw] by simp [announced, announce], ← announced_append]
  simp

/-! ### Examples -/

/-- The texts "MQTT", "y", "u" and "p" of a CONNECT. -/
example : readNotes exampleEnv (init examplePeers) 3 = announced [4, 1, 1, 1] := by decide +kernel

/-- The text shown for a length. -/
example : (Note.size 300).message = "String size: 300 (0x12c)".toList ∧ (Note.size 5).message = "String size: 5 (0x05)".toList := by decide +kernel

/-- C157, C183: a rule that shows these records and neither those of the packet handler nor those of the listener. -/
example : RustLog.enabled (RustLog.build (RustLog.parseSpec exampleWhite false "ratelmq::mqtt::transport=trace".toList).1) .trace path = true
    ∧ RustLog.lets exampleWhite false (fun _ => none) (some "ratelmq::mqtt::transport=trace".toList) ⟨.error, .handler, []⟩ = false
    ∧ RustLog.lets exampleWhite false (fun _ => none) (some "ratelmq::mqtt::transport=trace".toList) ⟨.error, .listener, []⟩ = false := by
  decide +kernel

end Ratel
