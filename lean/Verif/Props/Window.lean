/-
C91, C92: the reader and the windows of its buffer.
-/
import Verif.Props.Boundary
import Verif.Proofs.WindowReads

namespace Ratel

open Decoder

/-! ### C91 -/

theorem readMany_same {σ τ : Type} [ByteSource σ] [ByteSource τ] {R : σ → τ → Prop} (L : AlikeLaws σ τ R) (pr : Profile) (k : Nat) :
    Alike R (readMany pr k : M σ _) (readMany pr k : M τ _) := by
  induction k with
  | zero => exact Alike.pure _
  | succ k ih => exact (L.readPacket pr).bind fun _ => ih.bind fun _ => Alike.pure _

/-- C91, the part that holds: with a release of the library whose `advance` leaves an emptied view where it is, what `k` reads give
depends on the bytes alone, not on how TCP splits them: packets, errors, panics, waiting for ever and spinning. Missing: releases
that reset an emptied view, see `C91_split_fails`. -/
theorem C91_split_partial (al : Alloc) (hal : al.clearOnFullAdvance = false) (pr : Profile) (size : Nat) (hsize : 66 ≤ size)
    (segs segs' : List (List UInt8)) (fin : Ending) (k : Nat) (h : segs.flatten = segs'.flatten) :
    (received al pr size segs fin k).1 = (received al pr size segs' fin k).1 := by
  letI := RStream.source al
  have h1 := (readMany_same (RStream.tape al hal size hsize) pr k _ _ (RStream.onTape_new size segs fin)).1
  have h2 := (readMany_same (RStream.tape al hal size hsize) pr k _ _ (RStream.onTape_new size segs' fin)).1
  rw [h] at h1
  exact h1.trans h2.symm

/-- A byte that arrives alone at an empty view leaves no trace, if emptied views are reset. -/
theorem getU8_alone (al : Alloc) (hal : al.clearOnFullAdvance = true) (off cap : Nat) (b : UInt8) (segs rest : List (List UInt8))
    (fin : Ending) (hcap : 0 < cap) (hs : RStream.dropEmpty segs = [b] :: rest) :
    RStream.getU8 al ⟨⟨off, cap, []⟩, segs, fin⟩ = (.ok b, ⟨⟨off, cap, []⟩, [] :: rest, fin⟩) := by
  have hr : RStream.readBuf al ⟨⟨off, cap, []⟩, segs, fin⟩ = (.ok 1, ⟨⟨off, cap, [b]⟩, [] :: rest, fin⟩) := by
    unfold RStream.readBuf
    have h0 : ¬ cap = 0 := by omega
    have h1 : min 1 cap = 1 := by omega
    simp [hs, BytesMut.len, h0, h1]
  have hw : RStream.waitForData al 1 ⟨⟨off, cap, []⟩, segs, fin⟩ = (.ok (), ⟨⟨off, cap, [b]⟩, [] :: rest, fin⟩) := by
    rw [RStream.waitForData]
    simp only [BytesMut.len, List.length_nil, Nat.zero_lt_one, ↓reduceIte]
    split
    · rename_i heq
      rw [hr] at heq
      cases heq
      simp only [Nat.one_ne_zero, ↓reduceIte]
      rw [RStream.waitForData]
      simp [BytesMut.len]
    all_goals (rename_i heq; rw [hr] at heq; cases heq)
  unfold RStream.getU8
  refine (M.bind_ok hw).trans ?_
  simp [BytesMut.advance, hal, BytesMut.len]

/-- PINGREQs whose two bytes arrive one by one. -/
def pingsOneByOne (n : Nat) (rest : List (List UInt8)) : List (List UInt8) :=
  match n with
  | 0 => rest
  | n + 1 => [0xC0] :: [0] :: pingsOneByOne n rest

theorem readPings_alone (al : Alloc) (hal : al.clearOnFullAdvance = true) (pr : Profile) (off cap n : Nat) (hcap : 0 < cap)
    (segs rest : List (List UInt8)) (fin : Ending) (hs : RStream.dropEmpty segs = RStream.dropEmpty (pingsOneByOne n rest)) :
    letI := RStream.source al
    ∃ segs', (readMany pr n : M RStream _) ⟨⟨off, cap, []⟩, segs, fin⟩
        = (.ok (List.replicate n .pingReq), ⟨⟨off, cap, []⟩, segs', fin⟩) ∧ RStream.dropEmpty segs' = RStream.dropEmpty rest := by
  letI := RStream.source al
  induction n generalizing segs with
  | zero => exact ⟨segs, rfl, hs⟩
  | succ n ih =>
    obtain ⟨segs', h1, h2⟩ := ih ([] :: pingsOneByOne n rest) rfl
    refine ⟨segs', ?_, h2⟩
    have hd : RStream.dropEmpty segs = [0xC0] :: [0] :: pingsOneByOne n rest := hs
    have hg1 : (ByteSource.getU8 : M RStream _) ⟨⟨off, cap, []⟩, segs, fin⟩ = _ :=
      getU8_alone al hal off cap 0xC0 segs _ fin hcap hd
    have hg2 : (ByteSource.getU8 : M RStream _) ⟨⟨off, cap, []⟩, [] :: [0] :: pingsOneByOne n rest, fin⟩ = _ :=
      getU8_alone al hal off cap 0 _ _ fin hcap rfl
    have hp : (readPacket pr : M RStream _) ⟨⟨off, cap, []⟩, segs, fin⟩
        = (.ok .pingReq, ⟨⟨off, cap, []⟩, [] :: pingsOneByOne n rest, fin⟩) := by
      unfold readPacket decodeRemainingLength
      rw [M.bind_ok hg1, decodeRemainingLengthLoop, M.bind_assoc', M.bind_ok hg2]
      have := (SourceLaws.decodeBody_first (σ := RStream) pr 0).2.2.2.2.2.2.2.1
      simp
      rw [this]
      rfl
    rw [readMany, M.bind_ok hp, M.bind_ok h1]
    rfl

theorem pingsOneByOne_flatten (n : Nat) (rest : List (List UInt8)) : (pingsOneByOne n rest).flatten
    = sentBytes (List.replicate n .pingReq) ++ rest.flatten := by
  induction n with
  | zero => simp [pingsOneByOne, sentBytes]
  | succ n ih =>
    have : Spec.packet (Spec.clientFirst .pingReq) (Spec.clientRest .pingReq) = [0xC0, 0] := by
      unfold Spec.packet
      rw [show Spec.clientRest .pingReq = [] from rfl]
      simp only [List.length_nil]
      rw [Spec.varInt]
      rfl
    simp only [pingsOneByOne, List.flatten_cons, ih, sentBytes, List.replicate_succ, List.flatMap_cons, this]
    simp

/-- C91 is violated if the library resets emptied views: 2040 PINGREQs and the 18-byte message of the repository's own test are
received if the bytes of the PINGREQs come one by one, and make the reader spin if they all come at once. -/
theorem C91_split_fails (al : Alloc) (hal : al.clearOnFullAdvance = true) (pr : Profile) (fin : Ending) :
    ∃ segs segs' : List (List UInt8), segs.flatten = segs'.flatten
      ∧ (received al pr 4096 segs fin 2041).1 = .ok (List.replicate 2040 .pingReq ++ [.publish testMessage])
      ∧ (received al pr 4096 segs' fin 2041).1 = .hang := by
  letI := RStream.source al
  have hsmall : (Spec.publishRest testMessage).length < 2097152 := by rw [testMessage_rest]; decide
  refine ⟨pingsOneByOne 2040 [Spec.packet (Spec.publishFirst testMessage) (Spec.publishRest testMessage)],
    [sentBytes (List.replicate 2040 .pingReq) ++ Spec.packet (Spec.publishFirst testMessage) (Spec.publishRest testMessage)],
    by rw [pingsOneByOne_flatten, List.flatten_cons, List.flatten_nil, List.append_nil, List.flatten_cons, List.flatten_nil, List.append_nil], ?_, ?_⟩
  · obtain ⟨segs', h1, h2⟩ := readPings_alone al hal pr 0 4096 2040 (by decide) _
      [Spec.packet (Spec.publishFirst testMessage) (Spec.publishRest testMessage)] fin rfl
    have hmsg := (RStream.laws al).readPacket pr (.publish testMessage) testMessage_legal trivial _
      (lengthField_varInt _) (length_varInt_small hsmall) ⟨⟨0, 4096, []⟩, segs', fin⟩ [] 0
      (by
        show [] ++ segs'.flatten = _
        rw [← RStream.flatten_dropEmpty segs', h2, RStream.flatten_dropEmpty]
        simp only [List.nil_append, List.flatten_cons, List.flatten_nil, List.append_nil]
        rfl)
      ⟨by simp [RStream.Wf, BytesMut.len], by
        show 0 + (Spec.packet (Spec.publishFirst testMessage) (Spec.publishRest testMessage)).length ≤ 4096
        rw [testMessage_packet]
        decide⟩
    obtain ⟨s', h3, _⟩ := hmsg
    refine readMany_add pr 2040 1 _ _ _ _ h1 ?_
    rw [readMany, M.bind_ok h3]
    rfl
  · have key := C90_small_messages_fails al pr (List.replicate 2040 .pingReq)
      (by
        intro c hc
        rw [List.eq_of_mem_replicate hc]
        exact bare_legal trivial)
      testMessage testMessage_legal hsmall
      [sentBytes (List.replicate 2040 .pingReq) ++ Spec.packet (Spec.publishFirst testMessage) (Spec.publishRest testMessage)]
      fin [] (by rw [List.flatten_cons, List.flatten_nil, List.append_nil, List.append_nil]) (.inr ⟨_, rfl⟩)
      (by
        right
        have hp : (Spec.packet (Spec.clientFirst .pingReq) (Spec.clientRest .pingReq)).length = 2 := by
          unfold Spec.packet
          rw [show Spec.clientRest .pingReq = [] from rfl]
          simp only [List.length_nil]
          rw [Spec.varInt]
          rfl
        have hpay : testMessage.message.payload.length = 9 := by decide +kernel
        rw [List.length_append, sentBytes_replicate, hp, testMessage_packet, hpay]
        decide)
    rwa [List.length_replicate] at key

/-! ### C92 -/

theorem readMany_tape {T : Nat} (pr : Profile) (cs : List Spec.ClientPacket)
    (hc : ∀ c ∈ cs, Spec.Legal c ∧ Spec.NoWill c ∧ (Spec.clientRest c).length < 2097152) :
    TReads T (readMany pr cs.length) (sentBytes cs) (cs.flatMap Spec.fields) (cs.map Spec.meaning) := by
  induction cs with
  | nil => exact TReads.pure _
  | cons c cs ih =>
    obtain ⟨h1, h2, h3⟩ := hc c List.mem_cons_self
    have ih := ih fun c h => hc c (List.mem_cons_of_mem _ h)
    simp only [List.length_cons, readMany, sentBytes, List.flatMap_cons, List.map_cons]
    refine (TReads.readPacket pr c h1 h2 (lengthField_varInt _) (length_varInt_small h3)).bind ?_
    exact ih.bind_nil (f := fun ps => (pure (Spec.meaning c :: ps) : M (Tape T) _)) (TReads.pure _)

/-- C92. With a release of the library whose `advance` leaves an emptied view where it is, exactly those connections are served on
which every text and payload lies within one window of the buffer: any sequence of legal packets is received completely and
correctly if that is so, and makes the reader spin if not; whatever the fragmentation, the build and what follows. -/
theorem C92_window (al : Alloc) (hal : al.clearOnFullAdvance = false) (pr : Profile) (size : Nat) (hsize : 66 ≤ size)
    (cs : List Spec.ClientPacket)
    (hc : ∀ c ∈ cs, Spec.Legal c ∧ Spec.NoWill c ∧ (Spec.clientRest c).length < 2097152)
    (segs : List (List UInt8)) (fin : Ending) (rest : List UInt8) (hsegs : segs.flatten = sentBytes cs ++ rest) :
    (received al pr size segs fin cs.length).1
      = if (Spec.windows size size (cs.flatMap Spec.fields)).isSome then .ok (cs.map Spec.meaning) else .hang := by
  letI := RStream.source al
  have h1 := (readMany_same (RStream.tape al hal size hsize) pr cs.length _ _ (RStream.onTape_new size segs fin)).1
  have h2 := readMany_tape (T := size) pr cs hc rest fin size
  rw [hsegs] at h1
  refine h1.trans ?_
  cases hw : Spec.windows size size (cs.flatMap Spec.fields) with
  | none => rw [hw] at h2; simpa using h2
  | some l => rw [hw] at h2; simp [h2]

/-- The number of bytes of a field. -/
def fieldSize : Spec.Field → Nat
  | .one => 1
  | .two => 2
  | .bytes n => n

/-- Fields that fit into what is left of the window use up their bytes. -/
theorem windows_fit (size left : Nat) (fs : List Spec.Field) (h : (fs.map fieldSize).sum ≤ left) :
    Spec.windows size left fs = some (left - (fs.map fieldSize).sum) := by
  induction fs generalizing left with
  | nil => rfl
  | cons f fs ih =>
    simp only [List.map_cons, List.sum_cons] at h ⊢
    have hw : Spec.window size left f = some (left - fieldSize f) := by
      cases f with
      | one => simp only [fieldSize] at *; simp only [Spec.window]; rw [if_pos (by omega)]
      | two => simp only [fieldSize] at *; simp only [Spec.window]; rw [if_pos (by omega)]
      | bytes n => simp only [fieldSize] at *; simp only [Spec.window]; rw [if_pos (by omega)]
    rw [Spec.windows, hw, Option.bind_some, ih _ (by omega)]
    congr 1
    omega

theorem strFields_size (s : String) : ((Spec.strFields s).map fieldSize).sum = (Spec.str s).length := by
  simp [Spec.strFields, fieldSize, Spec.str, Spec.twoBytes]
  omega

theorem sum_flatMap_fields {α : Type} (f : α → List Spec.Field) (g : α → List UInt8)
    (h : ∀ a, ((f a).map fieldSize).sum = (g a).length) (l : List α) :
    ((l.flatMap f).map fieldSize).sum = (l.flatMap g).length := by
  induction l with
  | nil => rfl
  | cons a l ih => simp [List.flatMap_cons, List.sum_append, h, ih]

/-- The fields of a packet make up its bytes. -/
theorem fields_size (c : Spec.ClientPacket) (hw : Spec.NoWill c) :
    ((Spec.fields c).map fieldSize).sum = (Spec.packet (Spec.clientFirst c) (Spec.clientRest c)).length := by
  have hones : ∀ l : List UInt8, ((l.map fun _ => Spec.Field.one).map fieldSize).sum = l.length := by
    intro l
    induction l with
    | nil => rfl
    | cons a l ih => simp only [List.map_cons, List.sum_cons, ih, fieldSize, List.length_cons]; omega
  have hopt : ∀ o : Option String, ((o.elim [] Spec.strFields).map fieldSize).sum = (Spec.optional Spec.str o).length := by
    intro o
    cases o with
    | none => rfl
    | some s => exact strFields_size s
  have hrest : ((Spec.restFields c).map fieldSize).sum = (Spec.clientRest c).length := by
    cases c with
    | connect c =>
      have hw' : c.will = none := hw
      simp only [Spec.restFields, Spec.clientRest, Spec.connectRest, hw', List.map_append, List.sum_append, strFields_size, hopt,
        List.length_append]
      simp [fieldSize, Spec.twoBytes, Spec.optional]
    | publish p =>
      simp only [Spec.restFields, Spec.clientRest, Spec.publishRest, List.map_append, List.sum_append, strFields_size,
        List.length_append]
      cases p.packetId <;> simp [fieldSize, Spec.twoBytes, Spec.optional]
    | subscribe i fs =>
      simp only [Spec.restFields, Spec.clientRest, List.map_cons, List.sum_cons, List.length_append]
      rw [sum_flatMap_fields _ (fun (f, q) => Spec.str f ++ [Spec.byte (Spec.qosNum q)])
        (fun a => by simp [strFields_size, fieldSize])]
      rfl
    | unsubscribe i fs =>
      simp only [Spec.restFields, Spec.clientRest, List.map_cons, List.sum_cons, List.length_append]
      rw [sum_flatMap_fields _ Spec.str strFields_size]
      rfl
    | pubAck i => rfl
    | pubRec i => rfl
    | pubRel i => rfl
    | pubComp i => rfl
    | pingReq => rfl
    | disconnect => rfl
  simp only [Spec.fields, Spec.packet, List.cons_append, List.map_cons, List.map_append, List.sum_cons, List.sum_append, hones,
    hrest, fieldSize, List.length_cons, List.length_append]
  omega

theorem windows_restart (size : Nat) (hsize : 0 < size) (c : Spec.ClientPacket) (fs : List Spec.Field) :
    Spec.windows size 0 (Spec.fields c ++ fs) = Spec.windows size size (Spec.fields c ++ fs) := by
  have : 1 ≤ size := hsize
  simp [Spec.fields, Spec.windows, Spec.window, this]

/-- A consequence: a client all of whose packets have one length, a divisor of the buffer size, is served for ever. -/
theorem C92_divisor (al : Alloc) (hal : al.clearOnFullAdvance = false) (pr : Profile) (len times : Nat) (hlen : len * times = 4096)
    (cs : List Spec.ClientPacket) (hc : ∀ c ∈ cs, Spec.Legal c ∧ Spec.NoWill c)
    (hsame : ∀ c ∈ cs, (Spec.packet (Spec.clientFirst c) (Spec.clientRest c)).length = len)
    (segs : List (List UInt8)) (fin : Ending) (rest : List UInt8) (hsegs : segs.flatten = sentBytes cs ++ rest) :
    (received al pr 4096 segs fin cs.length).1 = .ok (cs.map Spec.meaning) := by
  have hpos : 0 < times := Nat.pos_of_ne_zero fun h => by rw [h] at hlen; simp at hlen
  have hle : len ≤ 4096 := by rw [← hlen]; exact Nat.le_mul_of_pos_right len hpos
  have hc' : ∀ c ∈ cs, Spec.Legal c ∧ Spec.NoWill c ∧ (Spec.clientRest c).length < 2097152 := by
    intro c h
    refine ⟨(hc c h).1, (hc c h).2, ?_⟩
    have := hsame c h
    simp only [Spec.packet, List.length_append, List.length_cons] at this
    omega
  rw [C92_window al hal pr 4096 (by decide) cs hc' segs fin rest hsegs]
  have key : ∀ (cs : List Spec.ClientPacket), (∀ c ∈ cs, Spec.Legal c ∧ Spec.NoWill c) →
      (∀ c ∈ cs, (Spec.packet (Spec.clientFirst c) (Spec.clientRest c)).length = len) →
      ∀ m, m ≤ times → (Spec.windows 4096 (len * m) (cs.flatMap Spec.fields)).isSome = true := by
    intro cs
    induction cs with
    | nil => intros; rfl
    | cons c cs ih =>
      intro hc hsame m hm
      have hstep : ∀ m, 0 < m → m ≤ times →
          (Spec.windows 4096 (len * m) ((c :: cs).flatMap Spec.fields)).isSome = true := by
        intro m hm0 hm
        have hsz := fields_size c (hc c List.mem_cons_self).2
        rw [hsame c List.mem_cons_self] at hsz
        have hm1 : len ≤ len * m := Nat.le_mul_of_pos_right len hm0
        rw [List.flatMap_cons, windows_append, windows_fit _ _ _ (by omega), hsz, Option.bind_some]
        have := ih (fun c h => hc c (List.mem_cons_of_mem _ h)) (fun c h => hsame c (List.mem_cons_of_mem _ h)) (m - 1) (by omega)
        rwa [Nat.mul_sub, Nat.mul_one] at this
      rcases Nat.eq_zero_or_pos m with rfl | h0
      · have := hstep times hpos (Nat.le_refl _)
        rw [hlen] at this
        rwa [Nat.mul_zero, List.flatMap_cons, windows_restart 4096 (by decide), ← List.flatMap_cons]
      · exact hstep m h0 hm
  have := key cs hc hsame times (Nat.le_refl _)
  rw [hlen] at this
  rw [if_pos this]

/-- 16-byte messages are received for ever; compare the 18-byte messages of `C90_test_message_fails`. -/
example (al : Alloc) (hal : al.clearOnFullAdvance = false) (pr : Profile) (fin : Ending) (n : Nat) :
    let q : PublishPacket := { packetId := none, dup := false, message := { topic := "a/b/c", payload := [1, 2, 3, 4, 5, 6, 7], qos := .atMostOnce, retain := false } }
    (received al pr 4096 [sentBytes (List.replicate n (.publish q))] fin n).1 = .ok (List.replicate n (.publish q)) := by
  intro q
  have hq : Spec.LegalPublish q := ⟨by decide +kernel, by decide⟩
  have h := C92_divisor al hal pr 16 256 rfl (List.replicate n (.publish q))
    (fun c hc => by rw [List.eq_of_mem_replicate hc]; exact ⟨hq, trivial⟩)
    (fun c hc => by
      rw [List.eq_of_mem_replicate hc]
      show (Spec.packet (Spec.publishFirst q) (Spec.publishRest q)).length = 16
      unfold Spec.packet
      rw [show Spec.publishRest q = [0, 5, 0x61, 0x2f, 0x62, 0x2f, 0x63, 1, 2, 3, 4, 5, 6, 7] by decide +kernel]
      simp only [List.length_cons, List.length_nil]
      rw [Spec.varInt]
      rfl)
    [sentBytes (List.replicate n (.publish q))] fin [] (by simp)
  simpa [List.map_replicate, Spec.meaning] using h

/-- The windows decide: the first packet whose payload crosses the end of a window. -/
example : Spec.windows 100 100 [.one, .one, .two, .bytes 90] = some 6 ∧ Spec.windows 100 6 [.one, .one, .two, .bytes 3] = none
    ∧ Spec.windows 100 3 [.one, .one, .two, .bytes 3] = some 95 := by decide

end Ratel
