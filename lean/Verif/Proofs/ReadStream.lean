/-
The buffered reader against the plain byte list.
-/
import Verif.Model.ReadStream
import Verif.Proofs.Loop
import Verif.Proofs.Monad
import Verif.Proofs.WriteStream

namespace Ratel

namespace RStream

/-- All bytes still to be read: buffered, then on their way. -/
def total (s : RStream) : List UInt8 := s.buf.data ++ s.segs.flatten

/-- The buffer is within its capacity. -/
def Wf (s : RStream) : Prop := s.buf.len ≤ s.buf.cap

theorem incoming_eq (s : RStream) : s.incoming + s.buf.len = s.total.length := by
  simp [incoming, total, BytesMut.len, Nat.add_comm]

theorem dropEmpty_head {l : List (List UInt8)} {seg : List UInt8} {rest : List (List UInt8)}
    (h : dropEmpty l = seg :: rest) : seg ≠ [] := by
  fun_induction dropEmpty l with
  | case1 rest' ih => exact ih h
  | case2 segs hne =>
    intro hs
    subst hs
    exact hne _ h

/-- The view after making room for a read. -/
def roomy (al : Alloc) (b : BytesMut) : BytesMut := if b.cap = b.len then b.reserve al 64 else b

theorem roomy_data (al : Alloc) (b : BytesMut) : (roomy al b).data = b.data := by
  unfold roomy; split
  · exact BytesMut.len_reserve al b 64
  · rfl

theorem roomy_cap (al : Alloc) (b : BytesMut) (h : b.len ≤ b.cap) : b.len < (roomy al b).cap := by
  unfold roomy; split
  · have := BytesMut.cap_reserve al b 64 h
    omega
  · omega

/-- A read when something is still to come. -/
theorem readBuf_some (al : Alloc) (s : RStream) (hwf : s.Wf) (h : s.incoming ≠ 0) :
    ∃ k s', readBuf al s = (.ok k, s') ∧ k ≠ 0 ∧ s'.total = s.total ∧ s'.fin = s.fin ∧ s'.Wf
      ∧ s'.buf.off = (roomy al s.buf).off ∧ s'.buf.cap = (roomy al s.buf).cap ∧ s'.buf.len = s.buf.len + k := by
  have hf := flatten_dropEmpty s.segs
  cases hd : dropEmpty s.segs with
  | nil =>
    rw [hd] at hf
    simp [incoming, ← hf] at h
  | cons seg rest =>
    rw [hd] at hf
    have hne := List.length_pos_iff.mpr (dropEmpty_head hd)
    have hroom := roomy_cap al s.buf hwf
    have hdata := roomy_data al s.buf
    have hlen : (roomy al s.buf).len = s.buf.len := by simp [BytesMut.len, hdata]
    let k := min seg.length ((roomy al s.buf).cap - (roomy al s.buf).len)
    have hk : k = min seg.length ((roomy al s.buf).cap - s.buf.len) := by simp only [k, hlen]
    refine ⟨k, ⟨{ roomy al s.buf with data := (roomy al s.buf).data ++ seg.take k }, seg.drop k :: rest, s.fin⟩,
      ?_, ?_, ?_, rfl, ?_, rfl, rfl, ?_⟩
    · unfold readBuf
      simp only [hd]
      rfl
    · omega
    · simp only [total, hdata, List.flatten_cons, ← hf]
      rw [List.append_assoc, ← List.append_assoc (seg.take _), List.take_append_drop]
    · simp only [Wf, BytesMut.len, List.length_append, List.length_take, hdata]
      have : s.buf.data.length = s.buf.len := rfl
      omega
    · simp only [BytesMut.len, List.length_append, List.length_take, hdata]
      omega

/-- How a request for more than there is ends. -/
def endRes {α : Type} : Ending → Res α
  | .eof => .err .connectionReset
  | .ioError => .err .other
  | .silence => .pending

/-- A read when nothing is to come any more. -/
theorem readBuf_none (al : Alloc) (s : RStream) (h : s.incoming = 0) :
    ∃ s', s'.total = s.total ∧ s'.fin = s.fin ∧
      readBuf al s = (match s.fin with
        | .eof => (.ok 0, s')
        | .ioError => (.err .other, s')
        | .silence => (.pending, s')) := by
  have hf := flatten_dropEmpty s.segs
  have hs : s.segs.flatten = [] := List.eq_nil_of_length_eq_zero h
  cases hd : dropEmpty s.segs with
  | nil =>
    refine ⟨⟨roomy al s.buf, [], s.fin⟩, by simp [total, roomy_data, hs], rfl, ?_⟩
    unfold readBuf
    simp only [hd]
    cases s.fin <;> rfl
  | cons seg rest =>
    rw [hd, hs] at hf
    have := dropEmpty_head hd
    simp at hf
    exact absurd hf.1 this

/-- Waiting for bytes that will come succeeds. The view only moves if it was full. -/
theorem waitForData_ok (al : Alloc) (n : Nat) (s : RStream) (hwf : s.Wf) (hn : n ≤ s.total.length) :
    ∃ s', waitForData al n s = (.ok (), s') ∧ s'.total = s.total ∧ s'.fin = s.fin ∧ s'.Wf ∧ n ≤ s'.buf.len
      ∧ (n ≤ s.buf.cap → s'.buf.off = s.buf.off ∧ s'.buf.cap = s.buf.cap)
      ∧ s.buf.cap ≤ s'.buf.cap
      ∧ (∀ T, 66 ≤ T → n ≤ 2 → s.buf.off + s.buf.cap = T → s'.buf.off + s'.buf.cap = T) := by
  fun_induction waitForData al n s with
  | case1 s hlt s' heq =>
    obtain ⟨k, s'', he, hk, _⟩ := readBuf_some al s hwf (by have := incoming_eq s; omega)
    rw [heq] at he
    cases he
    exact absurd rfl hk
  | case2 s hlt k s' heq hk ih =>
    obtain ⟨k', s'', he, hk', ht, hfin, hw, hoff, hcap, hlen⟩ :=
      readBuf_some al s hwf (by have := incoming_eq s; omega)
    rw [heq] at he
    cases he
    obtain ⟨s₂, h1, h2, h3, h4, h5, h6, h7, h8⟩ := ih hw (by rw [ht]; exact hn)
    have hcle : s.buf.cap ≤ s'.buf.cap := by
      rw [hcap]
      unfold roomy
      split
      · have := BytesMut.cap_reserve al s.buf 64 hwf
        omega
      · omega
    refine ⟨s₂, h1, h2.trans ht, h3.trans hfin, h4, h5, ?_, by omega, ?_⟩
    · intro hnc
      have hne : ¬ s.buf.cap = s.buf.len := by omega
      have hr : roomy al s.buf = s.buf := by simp [roomy, hne]
      rw [hr] at hoff hcap
      have := h6 (by omega)
      omega
    · intro T hT hn2 hoc
      refine h8 T hT hn2 ?_
      rw [hoff, hcap]
      unfold roomy
      unfold Wf at hwf
      split
      · unfold BytesMut.reserve
        split
        · exact hoc
        · split
          · simp only; omega
          · simp only; omega
      · exact hoc
  | case3 s hlt e s' heq =>
    obtain ⟨k, s'', he, hk, _⟩ := readBuf_some al s hwf (by have := incoming_eq s; omega)
    rw [heq] at he; cases he
  | case4 s hlt s' heq =>
    obtain ⟨k, s'', he, hk, _⟩ := readBuf_some al s hwf (by have := incoming_eq s; omega)
    rw [heq] at he; cases he
  | case5 s hlt s' heq =>
    obtain ⟨k, s'', he, hk, _⟩ := readBuf_some al s hwf (by have := incoming_eq s; omega)
    rw [heq] at he; cases he
  | case6 s hlt s' heq =>
    obtain ⟨k, s'', he, hk, _⟩ := readBuf_some al s hwf (by have := incoming_eq s; omega)
    rw [heq] at he; cases he
  | case7 s hge =>
    exact ⟨s, rfl, rfl, rfl, hwf, by omega, fun _ => ⟨rfl, rfl⟩, by omega, fun _ _ _ h => h⟩

/-- Waiting for more than will come ends as the stream does. -/
theorem waitForData_short (al : Alloc) (n : Nat) (s : RStream) (hwf : s.Wf) (hn : s.total.length < n) :
    ∃ s', waitForData al n s = (endRes s.fin, s') ∧ s'.total = s.total ∧ s'.fin = s.fin := by
  fun_induction waitForData al n s with
  | case1 s hlt s' heq =>
    by_cases hi : s.incoming = 0
    · obtain ⟨s'', h1, h2, h3⟩ := readBuf_none al s hi
      rw [heq] at h3
      cases hfin : s.fin <;> simp [hfin] at h3
      subst h3
      exact ⟨s', rfl, h1, h2.trans hfin⟩
    · obtain ⟨k', s'', he, hk', _⟩ := readBuf_some al s hwf hi
      rw [heq] at he
      cases he
      exact absurd rfl hk'
  | case2 s hlt k s' heq hk ih =>
    by_cases hi : s.incoming = 0
    · obtain ⟨s'', h1, h2, h3⟩ := readBuf_none al s hi
      rw [heq] at h3
      cases hfin : s.fin <;> simp [hfin] at h3
      exact absurd h3.1 hk
    · obtain ⟨k', s'', he, hk', ht, hfin, hw, hoff, hcap, hlen⟩ := readBuf_some al s hwf hi
      rw [heq] at he
      cases he
      obtain ⟨s₂, h1, h2, h3⟩ := ih hw (by rw [ht]; exact hn)
      exact ⟨s₂, by rw [h1, hfin], h2.trans ht, h3.trans hfin⟩
  | case3 s hlt e s' heq =>
    by_cases hi : s.incoming = 0
    · obtain ⟨s'', h1, h2, h3⟩ := readBuf_none al s hi
      rw [heq] at h3
      cases hfin : s.fin <;> simp [hfin] at h3
      obtain ⟨rfl, rfl⟩ := h3
      exact ⟨s', rfl, h1, h2.trans hfin⟩
    · obtain ⟨k', s'', he, hk', _⟩ := readBuf_some al s hwf hi
      rw [heq] at he; cases he
  | case4 s hlt s' heq =>
    by_cases hi : s.incoming = 0
    · obtain ⟨s'', h1, h2, h3⟩ := readBuf_none al s hi
      rw [heq] at h3
      cases hfin : s.fin <;> simp [hfin] at h3
    · obtain ⟨k', s'', he, hk', _⟩ := readBuf_some al s hwf hi
      rw [heq] at he; cases he
  | case5 s hlt s' heq =>
    by_cases hi : s.incoming = 0
    · obtain ⟨s'', h1, h2, h3⟩ := readBuf_none al s hi
      rw [heq] at h3
      cases hfin : s.fin <;> simp [hfin] at h3
    · obtain ⟨k', s'', he, hk', _⟩ := readBuf_some al s hwf hi
      rw [heq] at he; cases he
  | case6 s hlt s' heq =>
    by_cases hi : s.incoming = 0
    · obtain ⟨s'', h1, h2, h3⟩ := readBuf_none al s hi
      rw [heq] at h3
      cases hfin : s.fin <;> simp [hfin] at h3
      subst h3
      exact ⟨s', rfl, h1, h2.trans hfin⟩
    · obtain ⟨k', s'', he, hk', _⟩ := readBuf_some al s hwf hi
      rw [heq] at he; cases he
  | case7 s hge =>
    have := incoming_eq s
    omega

/-- What consuming `k` bytes does to the stream: the next bytes are `bs`, the rest stays; the capacity shrinks by at most `k`;
and a view of an allocation of `T ≥ 66` bytes stays one. -/
structure Consumed (s : RStream) (bs : List UInt8) (s' : RStream) : Prop where
  bytes : s.total = bs ++ s'.total
  fin : s'.fin = s.fin
  wf : s'.Wf
  cap : s.buf.cap ≤ s'.buf.cap + bs.length
  alloc : ∀ T, 66 ≤ T → s.buf.off + s.buf.cap = T → s'.buf.off + s'.buf.cap = T

theorem advance_consumed (al : Alloc) (s : RStream) (hwf : s.Wf) (n : Nat) (hn : n ≤ s.buf.len) :
    Consumed s (s.buf.data.take n) { s with buf := s.buf.advance al n } where
  bytes := by
    simp only [total, BytesMut.advance_data]
    rw [← List.append_assoc, List.take_append_drop]
  fin := rfl
  wf := BytesMut.advance_wf al _ _ hwf
  cap := by
    unfold Wf at hwf
    have : s.buf.data.length = s.buf.len := rfl
    simp only [BytesMut.advance, List.length_take]
    split
    · simp only; omega
    · simp only [BytesMut.splitTo]; omega
  alloc := by
    intro T _ hT
    unfold Wf at hwf
    simp only [BytesMut.advance]
    split
    · simp only; omega
    · simp only [BytesMut.splitTo]; omega

theorem Consumed.of_wait {s s₁ s₂ : RStream} {bs : List UInt8} (ht : s₁.total = s.total) (hf : s₁.fin = s.fin)
    (hc : s.buf.cap ≤ s₁.buf.cap) (ha : ∀ T, 66 ≤ T → s.buf.off + s.buf.cap = T → s₁.buf.off + s₁.buf.cap = T)
    (h : Consumed s₁ bs s₂) : Consumed s bs s₂ where
  bytes := by rw [← ht, h.bytes]
  fin := h.fin.trans hf
  wf := h.wf
  cap := by have := h.cap; omega
  alloc := fun T hT hs => h.alloc T hT (ha T hT hs)

theorem getU8_ok (al : Alloc) (s : RStream) (hwf : s.Wf) (b : UInt8) (r : List UInt8) (h : s.total = b :: r) :
    ∃ s', getU8 al s = (.ok b, s') ∧ Consumed s [b] s' := by
  obtain ⟨s₁, h1, ht, hf, hw, hl, _, hc, ha⟩ := waitForData_ok al 1 s hwf (by simp [h])
  have hb : ∃ r', s₁.buf.data = b :: r' := by
    cases hd : s₁.buf.data with
    | nil => simp [BytesMut.len, hd] at hl
    | cons x r' =>
      rw [h] at ht
      simp [total, hd] at ht
      exact ⟨r', by rw [ht.1]⟩
  obtain ⟨r', hb⟩ := hb
  refine ⟨{ s₁ with buf := s₁.buf.advance al 1 }, ?_, ?_⟩
  · unfold getU8
    refine (M.bind_ok h1).trans ?_
    simp [hb]
  · refine Consumed.of_wait ht hf hc (fun T hT hs => ha T hT (by omega) hs) ?_
    have := advance_consumed al s₁ hw 1 hl
    simpa [hb] using this

theorem getU8_short (al : Alloc) (s : RStream) (hwf : s.Wf) (h : s.total.length < 1) :
    ∃ s', getU8 al s = (endRes s.fin, s') := by
  obtain ⟨s₁, h1, _, _⟩ := waitForData_short al 1 s hwf h
  refine ⟨s₁, ?_⟩
  unfold getU8
  cases hfin : s.fin <;> rw [hfin] at h1
  · exact M.bind_err h1
  · exact M.bind_err h1
  · exact M.bind_pending h1

theorem getU16_ok (al : Alloc) (s : RStream) (hwf : s.Wf) (hi lo : UInt8) (r : List UInt8) (h : s.total = hi :: lo :: r) :
    ∃ s', getU16 al s = (.ok (u16OfBytes hi lo), s') ∧ Consumed s [hi, lo] s' := by
  obtain ⟨s₁, h1, ht, hf, hw, hl, _, hc, ha⟩ := waitForData_ok al 2 s hwf (by simp [h])
  have hb : ∃ r', s₁.buf.data = hi :: lo :: r' := by
    match hd : s₁.buf.data with
    | [] => simp [BytesMut.len, hd] at hl
    | [x] => simp [BytesMut.len, hd] at hl
    | x :: y :: r' =>
      rw [h] at ht
      simp [total, hd] at ht
      exact ⟨r', by rw [ht.1, ht.2.1]⟩
  obtain ⟨r', hb⟩ := hb
  refine ⟨{ s₁ with buf := s₁.buf.advance al 2 }, ?_, ?_⟩
  · unfold getU16
    refine (M.bind_ok h1).trans ?_
    simp [hb]
  · refine Consumed.of_wait ht hf hc (fun T hT hs => ha T hT (by omega) hs) ?_
    have := advance_consumed al s₁ hw 2 hl
    simpa [hb] using this

theorem getU16_short (al : Alloc) (s : RStream) (hwf : s.Wf) (h : s.total.length < 2) :
    ∃ s', getU16 al s = (endRes s.fin, s') := by
  obtain ⟨s₁, h1, _, _⟩ := waitForData_short al 2 s hwf h
  refine ⟨s₁, ?_⟩
  unfold getU16
  cases hfin : s.fin <;> rw [hfin] at h1
  · exact M.bind_err h1
  · exact M.bind_err h1
  · exact M.bind_pending h1

theorem splitTo_consumed (s : RStream) (hwf : s.Wf) (n : Nat) (hn : n ≤ s.buf.len) :
    Consumed s (s.buf.data.take n) { s with buf := s.buf.splitTo n } where
  bytes := by
    simp only [total, BytesMut.splitTo]
    rw [← List.append_assoc, List.take_append_drop]
  fin := rfl
  wf := by
    simp only [Wf, BytesMut.splitTo, BytesMut.len, List.length_drop] at *
    omega
  cap := by
    have : s.buf.data.length = s.buf.len := rfl
    simp only [BytesMut.splitTo, List.length_take]
    omega
  alloc := by
    intro T _ hT
    unfold Wf at hwf
    simp only [BytesMut.splitTo]; omega

/-- One round of the loop that gets what it waits for. -/
theorem round_ok (al : Alloc) (s : RStream) (hwf : s.Wf) (w : Nat) (hw : w ≤ s.buf.cap) (ht : w ≤ s.total.length) :
    ∃ s₁, waitForData al w s = (.ok (), s₁) ∧ s₁.buf.data.take w = s.total.take w
      ∧ Consumed s (s.total.take w) { s₁ with buf := s₁.buf.splitTo w }
      ∧ (s₁.buf.splitTo w).cap = s.buf.cap - w := by
  obtain ⟨s₁, h1, ht', hf, hw', hl, hoc, hc, _⟩ := waitForData_ok al w s hwf ht
  have hoc := hoc hw
  have htake : s₁.buf.data.take w = s.total.take w := by
    rw [← ht', total, List.take_append_of_le_length hl]
  refine ⟨s₁, h1, htake, ?_, by simp [BytesMut.splitTo, hoc.2]⟩
  rw [← htake]
  exact Consumed.of_wait ht' hf hc (fun T _ hs => by omega) (splitTo_consumed s₁ hw' w hl)

/-- `get_bytes` of no more than the capacity, all of which will come. -/
theorem getBytesLoop_ok (al : Alloc) (s : RStream) (hwf : s.Wf) (n : Nat) (acc : List UInt8) (hn : n ≤ s.buf.cap)
    (ht : n ≤ s.total.length) :
    ∃ s', getBytesLoop al n acc s = (.ok (acc ++ s.total.take n), s') ∧ Consumed s (s.total.take n) s' := by
  by_cases h0 : n = 0
  · subst h0
    refine ⟨s, by rw [getBytesLoop]; simp, ⟨by simp, rfl, hwf, by simp, fun _ _ h => h⟩⟩
  · obtain ⟨s₁, h1, htake, hc, _⟩ := round_ok al s hwf n hn ht
    refine ⟨_, ?_, hc⟩
    rw [getBytesLoop]
    have hr : s.roundSize n = n := by unfold roundSize; split <;> omega
    simp only [h0, ↓reduceIte, hr, h1, Nat.sub_self]
    rw [getBytesLoop]
    simp [htake]

/-- `get_bytes` of no more than the capacity, not all of which will come. -/
theorem getBytesLoop_short (al : Alloc) (s : RStream) (hwf : s.Wf) (n : Nat) (acc : List UInt8)
    (ht : s.total.length < n) (hc : s.total.length < s.buf.cap) :
    ∃ s', getBytesLoop al n acc s = (endRes s.fin, s') := by
  have hw : s.total.length < s.roundSize n := by unfold roundSize; split <;> omega
  obtain ⟨s₁, h1, _⟩ := waitForData_short al (s.roundSize n) s hwf hw
  refine ⟨s₁, ?_⟩
  rw [getBytesLoop]
  have h0 : ¬ n = 0 := by omega
  have hw0 : ¬ s.roundSize n = 0 := by omega
  simp only [h0, hw0, ↓reduceIte, h1]
  cases s.fin <;> rfl

/-- `get_bytes` of more than the capacity spins once the capacity is used up. -/
theorem getBytesLoop_hang (al : Alloc) (s : RStream) (hwf : s.Wf) (n : Nat) (acc : List UInt8) (hn : s.buf.cap < n)
    (ht : s.buf.cap ≤ s.total.length) : ∃ s', getBytesLoop al n acc s = (.hang, s') := by
  have h0 : ¬ n = 0 := by omega
  have hr : s.roundSize n = s.buf.cap := by unfold roundSize; split <;> omega
  by_cases hc : s.buf.cap = 0
  · refine ⟨s, ?_⟩
    rw [getBytesLoop]
    simp [h0, hr, hc]
  · obtain ⟨s₁, h1, htake, _, hcap⟩ := round_ok al s hwf s.buf.cap (by omega) ht
    refine ⟨{ s₁ with buf := s₁.buf.splitTo s.buf.cap }, ?_⟩
    rw [getBytesLoop]
    simp only [h0, hr, hc, ↓reduceIte, h1]
    rw [getBytesLoop]
    have h3 : ¬ n - s.buf.cap = 0 := by omega
    have h4 : ({ s₁ with buf := s₁.buf.splitTo s.buf.cap } : RStream).roundSize (n - s.buf.cap) = 0 := by
      unfold roundSize
      simp only [hcap]
      split <;> omega
    simp [h3, h4]

/-- The modelled loop spins exactly when the literal loop body of `get_bytes` repeats for ever, and otherwise ends as it does. -/
theorem getBytes_hang_iff_spins (al : Alloc) (n : Nat) (acc : List UInt8) (s : RStream) :
    ((getBytesLoop al n acc s).1 = .hang ↔ Spins (getBytesRound al) (n, acc, s))
    ∧ ((getBytesLoop al n acc s).1 ≠ .hang → Ends (getBytesRound al) (n, acc, s) (getBytesLoop al n acc s)) := by
  have hwait : ∀ w s s', waitForData al w s ≠ (.hang, s') := by
    intro w s s'
    fun_induction waitForData al w s with
    | case5 s hlt s'' heq =>
      unfold readBuf at heq
      cases hd : dropEmpty s.segs <;> cases hfin : s.fin <;> simp [hd, hfin] at heq
    | case2 s hlt k s'' heq hk ih => exact ih
    | _ => simp
  fun_induction getBytesLoop al n acc s with
  | case1 acc s =>
    have he : getBytesRound al (0, acc, s) = .inr (.ok acc, s) := by simp [getBytesRound]
    exact ⟨⟨fun h => by simp at h, fun h => absurd h (not_spins_of_ends (ends_now he))⟩, fun _ => ends_now he⟩
  | case2 n acc s h0 w hw =>
    have he : getBytesRound al (n, acc, s) = .inl (n, acc, s) := by
      have hw' : s.roundSize n = 0 := hw
      simp only [getBytesRound, Nat.pos_of_ne_zero h0, ↓reduceIte, hw']
      rw [waitForData]
      simp [BytesMut.splitTo]
    exact ⟨⟨fun _ => spins_of_fixed he, fun _ => rfl⟩, fun h => absurd rfl h⟩
  | case3 n acc s h0 w hw u s' heq ih =>
    have he : getBytesRound al (n, acc, s)
        = .inl (n - w, acc ++ s'.buf.data.take w, { s' with buf := s'.buf.splitTo w }) := by
      have heq' : waitForData al (s.roundSize n) s = (.ok u, s') := heq
      simp only [getBytesRound, Nat.pos_of_ne_zero h0, ↓reduceIte, heq']
      rfl
    refine ⟨⟨fun h => spins_step he (ih.1.mp h), fun h => ?_⟩, fun h => ends_step he (ih.2 h)⟩
    exact Classical.byContradiction fun hne => not_spins_of_ends (ends_step he (ih.2 hne)) h
  | case4 n acc s h0 w hw e s' heq =>
    have he : getBytesRound al (n, acc, s) = .inr (.err e, s') := by
      have heq' : waitForData al (s.roundSize n) s = (.err e, s') := heq
      simp only [getBytesRound, Nat.pos_of_ne_zero h0, ↓reduceIte, heq']
    exact ⟨⟨fun h => by simp at h, fun h => absurd h (not_spins_of_ends (ends_now he))⟩, fun _ => ends_now he⟩
  | case5 n acc s h0 w hw s' heq =>
    have he : getBytesRound al (n, acc, s) = .inr (.panic, s') := by
      have heq' : waitForData al (s.roundSize n) s = (.panic, s') := heq
      simp only [getBytesRound, Nat.pos_of_ne_zero h0, ↓reduceIte, heq']
    exact ⟨⟨fun h => by simp at h, fun h => absurd h (not_spins_of_ends (ends_now he))⟩, fun _ => ends_now he⟩
  | case6 n acc s h0 w hw s' heq => exact absurd heq (hwait _ _ _)
  | case7 n acc s h0 w hw s' heq =>
    have he : getBytesRound al (n, acc, s) = .inr (.pending, s') := by
      have heq' : waitForData al (s.roundSize n) s = (.pending, s') := heq
      simp only [getBytesRound, Nat.pos_of_ne_zero h0, ↓reduceIte, heq']
    exact ⟨⟨fun h => by simp at h, fun h => absurd h (not_spins_of_ends (ends_now he))⟩, fun _ => ends_now he⟩

end RStream

end Ratel
