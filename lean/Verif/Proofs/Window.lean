/-
The buffered reader of a `bytes` release whose `advance` never resets the view is, exactly, a byte list and a number: what is left of
the current window of the buffer.
-/
import Verif.Proofs.Alike
import Verif.Proofs.ReadStream

namespace Ratel

/-- All bytes still to be read, how the stream ends, and how many bytes of the current window are left. -/
structure Tape (T : Nat) where
  bytes : List UInt8
  fin : Ending
  left : Nat

namespace Tape

variable {T : Nat}

/-- Fewer bytes left than asked for. -/
def short {α : Type} : M (Tape T) α := fun t => (RStream.endRes t.fin, t)

/-- A number of `n` bytes that does not fit into the window starts a new one. -/
def number (T n left : Nat) : Nat := if n ≤ left then left - n else T - n

instance source : ByteSource (Tape T) where
  getU8 := fun t => match t.bytes with
    | b :: r => (.ok b, ⟨r, t.fin, number T 1 t.left⟩)
    | [] => short t
  getU16 := fun t => match t.bytes with
    | hi :: lo :: r => (.ok (u16OfBytes hi lo), ⟨r, t.fin, number T 2 t.left⟩)
    | _ => short t
  getBytes := fun n t =>
    if n > isizeMax then (.panic, t)
    else if n ≤ t.left then
      if n ≤ t.bytes.length then (.ok (t.bytes.take n), ⟨t.bytes.drop n, t.fin, t.left - n⟩) else short t
    else if t.left ≤ t.bytes.length then (.hang, t) else short t
  avail t := t.bytes.length

end Tape

namespace RStream

/-- The stream and the tape hold the same remaining bytes, and the view is what is left of the window. -/
structure OnTape (T : Nat) (s : RStream) (t : Tape T) : Prop where
  bytes : s.total = t.bytes
  fin : s.fin = t.fin
  wf : s.Wf
  alloc : s.buf.off + s.buf.cap = T
  left : s.buf.cap = t.left

/-- Waiting for one or two bytes that do not fit into the view moves it to the front of the allocation. -/
theorem waitForData_turn (al : Alloc) (T : Nat) (hT : 66 ≤ T) (n : Nat) (hn2 : n ≤ 2) (s : RStream) (hwf : s.Wf)
    (hn : n ≤ s.total.length) (ha : s.buf.off + s.buf.cap = T) (s' : RStream) (h : waitForData al n s = (.ok (), s')) :
    s'.buf.cap = if n ≤ s.buf.cap then s.buf.cap else T := by
  fun_induction waitForData al n s with
  | case2 s hlt k s₁ heq hk ih =>
    obtain ⟨k', s'', he, hk', ht, hfin, hw, hoff, hcap, hlen⟩ := readBuf_some al s hwf (by have := incoming_eq s; omega)
    rw [heq] at he
    cases he
    have hro : (roomy al s.buf).off + (roomy al s.buf).cap = T
        ∧ (roomy al s.buf).cap = if s.buf.cap = s.buf.len then T else s.buf.cap := by
      unfold roomy Wf at *
      by_cases hfull : s.buf.cap = s.buf.len
      · simp only [hfull, ↓reduceIte]
        unfold BytesMut.reserve
        rw [if_neg (by omega), if_pos (by omega)]
        simp only
        omega
      · simp only [hfull, ↓reduceIte]
        exact ⟨ha, trivial⟩
    have := ih hw (by rw [ht]; exact hn) (by omega) h
    rw [this, hcap, hro.2]
    unfold Wf at hwf
    by_cases hfull : s.buf.cap = s.buf.len
    · rw [if_pos hfull, if_pos (by omega), if_neg (by omega)]
    · rw [if_neg hfull]
  | case7 s hge =>
    cases h
    unfold Wf at hwf
    rw [if_pos (by omega)]
  | case1 s hlt s' heq => cases h
  | case3 s hlt e s' heq => cases h
  | case4 s hlt s' heq => cases h
  | case5 s hlt s' heq => cases h
  | case6 s hlt s' heq => cases h

theorem endRes_ne_ok {α : Type} (f : Ending) (a : α) : (endRes f : Res α) ≠ .ok a := by cases f <;> simp [endRes]

/-- Without resetting, the reader is on its tape. -/
theorem tape (al : Alloc) (hal : al.clearOnFullAdvance = false) (T : Nat) (hT : 66 ≤ T) :
    @AlikeLaws RStream (Tape T) (RStream.source al) _ (OnTape T) := by
  letI := RStream.source al
  have hadv : ∀ (b : BytesMut) n, b.advance al n = b.splitTo n := by
    intro b n
    simp [BytesMut.advance, hal]
  constructor
  · intro s t hr
    have := incoming_eq s
    rw [hr.bytes] at this
    show s.buf.len + s.incoming = t.bytes.length
    omega
  · intro s t hr
    show (getU8 al s).1 = (match t.bytes with | b :: r => _ | [] => _ : Res UInt8 × Tape T).1 ∧ _
    cases hb : t.bytes with
    | nil =>
      obtain ⟨s', h⟩ := getU8_short al s hr.wf (by rw [hr.bytes, hb]; simp)
      have h' : (ByteSource.getU8 : M RStream _) s = (endRes s.fin, s') := h
      rw [h, h']
      exact ⟨by simp [Tape.short, hr.fin], fun a h => absurd h (endRes_ne_ok _ _)⟩
    | cons b r =>
      obtain ⟨s₁, h1, ht, hf, hw, hl, _, _, ha⟩ := waitForData_ok al 1 s hr.wf (by rw [hr.bytes, hb]; simp)
      have hcap := waitForData_turn al T hT 1 (by omega) s hr.wf (by rw [hr.bytes, hb]; simp) hr.alloc s₁ h1
      have hd : ∃ r', s₁.buf.data = b :: r' := by
        cases hd : s₁.buf.data with
        | nil => simp [BytesMut.len, hd] at hl
        | cons x r' =>
          rw [hr.bytes, hb] at ht
          simp [total, hd] at ht
          exact ⟨r', by rw [ht.1]⟩
      obtain ⟨r', hd⟩ := hd
      have h : getU8 al s = (.ok b, { s₁ with buf := s₁.buf.splitTo 1 }) := by
        unfold getU8
        refine (M.bind_ok h1).trans ?_
        simp [hd, hadv]
      have h' : (ByteSource.getU8 : M RStream _) s = _ := h
      rw [h, h']
      refine ⟨rfl, fun a _ => ?_⟩
      have hc := splitTo_consumed s₁ hw 1 hl
      have hbytes := hc.bytes
      have ha' := ha T hT (by omega) hr.alloc
      rw [ht, hr.bytes, hb, hd] at hbytes
      have ht' : (ByteSource.getU8 : M (Tape T) _) t = (.ok b, ⟨r, t.fin, Tape.number T 1 t.left⟩) := by
        simp [ByteSource.getU8, hb]
      rw [ht']
      refine ⟨by simpa using hbytes.symm, hf.trans hr.fin, hc.wf, hc.alloc T hT ha', ?_⟩
      have hle := hr.left
      simp only [BytesMut.splitTo, Tape.number, ← hr.left, hcap]
      split <;> rfl
  · intro s t hr
    match hb : t.bytes with
    | [] =>
      obtain ⟨s', h⟩ := getU16_short al s hr.wf (by rw [hr.bytes, hb]; simp)
      have h' : (ByteSource.getU16 : M RStream _) s = (endRes s.fin, s') := h
      have ht' : (ByteSource.getU16 : M (Tape T) _) t = (endRes t.fin, t) := by simp [ByteSource.getU16, hb, Tape.short]
      rw [h', ht']
      exact ⟨by simp [hr.fin], fun a h => absurd h (endRes_ne_ok _ _)⟩
    | [x] =>
      obtain ⟨s', h⟩ := getU16_short al s hr.wf (by rw [hr.bytes, hb]; simp)
      have h' : (ByteSource.getU16 : M RStream _) s = (endRes s.fin, s') := h
      have ht' : (ByteSource.getU16 : M (Tape T) _) t = (endRes t.fin, t) := by simp [ByteSource.getU16, hb, Tape.short]
      rw [h', ht']
      exact ⟨by simp [hr.fin], fun a h => absurd h (endRes_ne_ok _ _)⟩
    | hi :: lo :: r =>
      obtain ⟨s₁, h1, ht, hf, hw, hl, _, _, ha⟩ := waitForData_ok al 2 s hr.wf (by rw [hr.bytes, hb]; simp)
      have hcap := waitForData_turn al T hT 2 (by omega) s hr.wf (by rw [hr.bytes, hb]; simp) hr.alloc s₁ h1
      have hd : ∃ r', s₁.buf.data = hi :: lo :: r' := by
        match hd : s₁.buf.data with
        | [] => simp [BytesMut.len, hd] at hl
        | [x] => simp [BytesMut.len, hd] at hl
        | x :: y :: r' =>
          rw [hr.bytes, hb] at ht
          simp [total, hd] at ht
          exact ⟨r', by rw [ht.1, ht.2.1]⟩
      obtain ⟨r', hd⟩ := hd
      have h : getU16 al s = (.ok (u16OfBytes hi lo), { s₁ with buf := s₁.buf.splitTo 2 }) := by
        unfold getU16
        refine (M.bind_ok h1).trans ?_
        simp [hd, hadv]
      have h' : (ByteSource.getU16 : M RStream _) s = _ := h
      have ht' : (ByteSource.getU16 : M (Tape T) _) t
          = (.ok (u16OfBytes hi lo), ⟨r, t.fin, Tape.number T 2 t.left⟩) := by
        simp [ByteSource.getU16, hb]
      rw [h', ht']
      refine ⟨rfl, fun a _ => ?_⟩
      have hc := splitTo_consumed s₁ hw 2 hl
      have hbytes := hc.bytes
      have ha' := ha T hT (by omega) hr.alloc
      rw [ht, hr.bytes, hb, hd] at hbytes
      refine ⟨by simpa using hbytes.symm, hf.trans hr.fin, hc.wf, hc.alloc T hT ha', ?_⟩
      simp only [BytesMut.splitTo, Tape.number, ← hr.left, hcap]
      split <;> rfl
  · intro n s t hr
    have hlen : s.total.length = t.bytes.length := by rw [hr.bytes]
    by_cases hbig : n > isizeMax
    · have h' : (ByteSource.getBytes n : M RStream _) s = (.panic, s) := by
        show getBytes al n s = _
        simp only [getBytes, hbig, ↓reduceIte]
      have ht' : (ByteSource.getBytes n : M (Tape T) _) t = (.panic, t) := by
        simp only [ByteSource.getBytes, hbig, ↓reduceIte]
      rw [h', ht']
      exact ⟨rfl, fun _ h => by cases h⟩
    · have hs : (ByteSource.getBytes n : M RStream _) s = getBytesLoop al n [] s := by
        show getBytes al n s = _
        simp only [getBytes, hbig, ↓reduceIte]
      rw [hs]
      have hle := hr.left
      by_cases hcap : n ≤ t.left
      · by_cases ht : n ≤ t.bytes.length
        · have ht' : (ByteSource.getBytes n : M (Tape T) _) t
              = (.ok (t.bytes.take n), ⟨t.bytes.drop n, t.fin, t.left - n⟩) := by
            simp only [ByteSource.getBytes, hbig, ↓reduceIte, hcap, ht]
          by_cases h0 : n = 0
          · subst h0
            have hg : getBytesLoop al 0 [] s = (.ok [], s) := by rw [getBytesLoop]; simp
            rw [hg, ht']
            exact ⟨by simp, fun _ _ => ⟨by simpa using hr.bytes, hr.fin, hr.wf, hr.alloc, by simpa using hr.left⟩⟩
          · obtain ⟨s₁, h1, htake, hc, hcap'⟩ := round_ok al s hr.wf n (by omega) (by omega)
            have hg : getBytesLoop al n [] s = (.ok (s.total.take n), { s₁ with buf := s₁.buf.splitTo n }) := by
              rw [getBytesLoop]
              have hrs : s.roundSize n = n := by unfold roundSize; split <;> omega
              simp only [h0, ↓reduceIte, hrs, h1, Nat.sub_self]
              rw [getBytesLoop]
              simp [htake]
            rw [hg, ht']
            refine ⟨by rw [hr.bytes], fun _ _ => ⟨?_, hc.fin.trans hr.fin, hc.wf, hc.alloc T hT hr.alloc, ?_⟩⟩
            · have hbytes := hc.bytes
              rw [hr.bytes] at hbytes
              conv at hbytes => lhs; rw [← List.take_append_drop n t.bytes]
              exact (List.append_cancel_left hbytes).symm
            · simp only
              omega
        · have ht' : (ByteSource.getBytes n : M (Tape T) _) t = (endRes t.fin, t) := by
            simp only [ByteSource.getBytes, hbig, ↓reduceIte, hcap, ht, Tape.short]
          obtain ⟨s', h⟩ := getBytesLoop_short al s hr.wf n [] (by omega) (by omega)
          rw [h, ht']
          exact ⟨by simp [hr.fin], fun a h => absurd h (endRes_ne_ok _ _)⟩
      · by_cases ht : t.left ≤ t.bytes.length
        · have ht' : (ByteSource.getBytes n : M (Tape T) _) t = (.hang, t) := by
            simp only [ByteSource.getBytes, hbig, ↓reduceIte, hcap, ht]
          obtain ⟨s', h⟩ := getBytesLoop_hang al s hr.wf n [] (by omega) (by omega)
          rw [h, ht']
          exact ⟨rfl, fun _ h => by cases h⟩
        · have ht' : (ByteSource.getBytes n : M (Tape T) _) t = (endRes t.fin, t) := by
            simp only [ByteSource.getBytes, hbig, ↓reduceIte, hcap, ht, Tape.short]
          obtain ⟨s', h⟩ := getBytesLoop_short al s hr.wf n [] (by omega) (by omega)
          rw [h, ht']
          exact ⟨by simp [hr.fin], fun a h => absurd h (endRes_ne_ok _ _)⟩

theorem onTape_new (size : Nat) (segs : List (List UInt8)) (fin : Ending) :
    OnTape size (RStream.new size segs fin) ⟨segs.flatten, fin, size⟩ where
  bytes := by simp [total, RStream.new, BytesMut.withCapacity]
  fin := rfl
  wf := by simp [Wf, RStream.new, BytesMut.withCapacity, BytesMut.len]
  alloc := by simp [RStream.new, BytesMut.withCapacity]
  left := rfl

end RStream

end Ratel
