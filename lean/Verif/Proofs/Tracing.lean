/-
The decoder with records reads what the decoder reads, and its records are the lengths of the texts.
-/
import Verif.Spec.Tracing
import Verif.Proofs.Utf8
import Verif.Proofs.Decoder
import Verif.Proofs.LogWhole

namespace Ratel.Tracing

open Spec ByteSource

variable {σ : Type}

theorem announced_append (a b : List Nat) : announced (a ++ b) = announced a ++ announced b := List.flatMap_append

/-- What a successful read of the source's bytes gives is as long as asked for. -/
def Exact (σ : Type) [ByteSource σ] : Prop :=
  ∀ n (s s' : σ) bs, getBytes n s = (.ok bs, s') → bs.length = n

/-- With records, `x` does what `y` does without; what it returns and the lengths it tells fit, and if it fails the records may end with a text whose
length could not be read. -/
def Tells {α : Type} (x : T σ α) (y : M σ α) (N : α → List Nat → Prop) : Prop :=
  ∀ s l, ∃ r s' l', x (s, l) = (r, (s', l')) ∧ y s = (r, s')
    ∧ (∃ ns tail, l' = l ++ announced ns ++ tail ∧ (tail = [] ∨ tail = [.parsing]))
    ∧ ∀ a, r = .ok a → ∃ ns, N a ns ∧ l' = l ++ announced ns

namespace Tells

variable {α β : Type}

theorem quiet (y : M σ α) : Tells (quiet y) y fun _ ns => ns = [] := fun s l =>
  ⟨(y s).1, (y s).2, l, rfl, rfl, ⟨[], [], by simp [announced], .inl rfl⟩, fun _ _ => ⟨[], rfl, by simp [announced]⟩⟩

theorem pure (a : α) {N : α → List Nat → Prop} (h : N a []) : Tells (Pure.pure a : T σ α) (Pure.pure a) N := fun s l =>
  ⟨.ok a, s, l, rfl, rfl, ⟨[], [], by simp [announced], .inl rfl⟩, fun b hb => ⟨[], by cases hb; exact h, by simp [announced]⟩⟩

theorem fail (e : ErrKind) {N : α → List Nat → Prop} : Tells (M.fail e : T σ α) (M.fail e) N := fun s l =>
  ⟨.err e, s, l, rfl, rfl, ⟨[], [], by simp [announced], .inl rfl⟩, fun _ hb => by cases hb⟩

theorem panic {N : α → List Nat → Prop} : Tells (M.panic : T σ α) M.panic N := fun s l =>
  ⟨.panic, s, l, rfl, rfl, ⟨[], [], by simp [announced], .inl rfl⟩, fun _ hb => by cases hb⟩

theorem hang {N : α → List Nat → Prop} : Tells (fun sl => (.hang, sl) : T σ α) (fun s => (.hang, s)) N := fun s l =>
  ⟨.hang, s, l, rfl, rfl, ⟨[], [], by simp [announced], .inl rfl⟩, fun _ hb => by cases hb⟩

theorem bind {x : T σ α} {y : M σ α} {f : α → T σ β} {g : α → M σ β} {N : α → List Nat → Prop} {K : β → List Nat → Prop} (h : Tells x y N)
    (hk : ∀ a n, N a n → Tells (f a) (g a) fun b m => K b (n ++ m)) : Tells (x >>= f) (y >>= g) K := by
  intro s l
  obtain ⟨r, s', l', h1, h2, h3, h4⟩ := h s l
  cases r with
  | ok a =>
    obtain ⟨n, hn, rfl⟩ := h4 a rfl
    obtain ⟨r, s'', l'', k1, k2, ⟨ms, tail, k3, k4⟩, k5⟩ := hk a n hn s' (l ++ announced n)
    refine ⟨r, s'', l'', by rw [M.bind_ok h1, k1], by rw [M.bind_ok h2, k2], ⟨n ++ ms, tail, by rw [k3, announced_append]; simp, k4⟩, fun b hb => ?_⟩
    obtain ⟨m, k6, k7⟩ := k5 b hb
    exact ⟨n ++ m, k6, by rw [k7, announced_append]; simp⟩
  | err e => exact ⟨.err e, s', l', M.bind_err h1, M.bind_err h2, h3, fun _ hb => by cases hb⟩
  | panic => exact ⟨.panic, s', l', M.bind_panic h1, M.bind_panic h2, h3, fun _ hb => by cases hb⟩
  | pending => exact ⟨.pending, s', l', M.bind_pending h1, M.bind_pending h2, h3, fun _ hb => by cases hb⟩
  | hang => exact ⟨.hang, s', l', by rw [M.bind_apply, h1], by rw [M.bind_apply, h2], h3, fun _ hb => by cases hb⟩

theorem weaken {x : T σ α} {y : M σ α} {N K : α → List Nat → Prop} (h : Tells x y N) (hk : ∀ a n, N a n → K a n) : Tells x y K := by
  intro s l
  obtain ⟨r, s', l', h1, h2, h3, h4⟩ := h s l
  exact ⟨r, s', l', h1, h2, h3, fun a ha => let ⟨n, k1, k2⟩ := h4 a ha; ⟨n, hk a n k1, k2⟩⟩

/-- After something quiet. -/
theorem after {y : M σ α} {f : α → T σ β} {g : α → M σ β} {K : β → List Nat → Prop} (hk : ∀ a, Tells (f a) (g a) K) :
    Tells (Tracing.quiet y >>= f) (y >>= g) K :=
  (quiet y).bind fun a n hn => by subst hn; exact hk a

variable [ByteSource σ]

theorem getString (E : Exact σ) : Tells (Tracing.getString : T σ String) Decoder.getString fun a ns => ns = [strLen a] := by
  intro s l
  unfold Tracing.getString Decoder.getString
  rw [M.bind_ok (show note .parsing (s, l) = (.ok (), (s, l ++ [.parsing])) from rfl)]
  rcases hu : (getU16 s : Res UInt16 × σ) with ⟨r, s₁⟩
  have hq : Tracing.quiet getU16 (s, l ++ [Note.parsing]) = (r, (s₁, l ++ [Note.parsing])) := by
    simp only [Tracing.quiet, hu]
  have tail : ∃ ns tail, l ++ [Note.parsing] = l ++ announced ns ++ tail ∧ (tail = [] ∨ tail = [.parsing]) :=
    ⟨[], [.parsing], by simp [announced], .inr rfl⟩
  cases r with
  | err e => exact ⟨.err e, s₁, _, M.bind_err hq, M.bind_err hu, tail, fun _ hb => by cases hb⟩
  | panic => exact ⟨.panic, s₁, _, M.bind_panic hq, M.bind_panic hu, tail, fun _ hb => by cases hb⟩
  | pending => exact ⟨.pending, s₁, _, M.bind_pending hq, M.bind_pending hu, tail, fun _ hb => by cases hb⟩
  | hang => exact ⟨.hang, s₁, _, by rw [M.bind_apply, hq], by rw [M.bind_apply, hu], tail, fun _ hb => by cases hb⟩
  | ok n =>
    rw [M.bind_ok hq, M.bind_ok hu,
      M.bind_ok (show note (.size n.toNat) (s₁, l ++ [.parsing]) = (.ok (), (s₁, l ++ [.parsing] ++ [.size n.toNat])) from rfl),
      M.bind_ok (show note .buffer (s₁, l ++ [.parsing] ++ [.size n.toNat]) = (.ok (), (s₁, l ++ [.parsing] ++ [.size n.toNat] ++ [.buffer])) from rfl)]
    have hl : l ++ [.parsing] ++ [.size n.toNat] ++ [.buffer] = l ++ announced [n.toNat] := by simp [announced, announce]
    rw [hl]
    rcases hb : (getBytes n.toNat s₁ : Res (List UInt8) × σ) with ⟨r, s₂⟩
    have hq : Tracing.quiet (getBytes n.toNat) (s₁, l ++ announced [n.toNat]) = (r, (s₂, l ++ announced [n.toNat])) := by
      simp only [Tracing.quiet, hb]
    have tail : ∃ ns tail, l ++ announced [n.toNat] = l ++ announced ns ++ tail ∧ (tail = [] ∨ tail = [Note.parsing]) :=
      ⟨[n.toNat], [], by simp, .inl rfl⟩
    cases r with
    | err e => exact ⟨.err e, s₂, _, M.bind_err hq, M.bind_err hb, tail, fun _ hb => by cases hb⟩
    | panic => exact ⟨.panic, s₂, _, M.bind_panic hq, M.bind_panic hb, tail, fun _ hb => by cases hb⟩
    | pending => exact ⟨.pending, s₂, _, M.bind_pending hq, M.bind_pending hb, tail, fun _ hb => by cases hb⟩
    | hang => exact ⟨.hang, s₂, _, by rw [M.bind_apply, hq], by rw [M.bind_apply, hb], tail, fun _ hb => by cases hb⟩
    | ok bs =>
      rw [M.bind_ok hq, M.bind_ok hb]
      cases hf : fromUtf8 bs with
      | none => exact ⟨.err .invalidData, s₂, _, rfl, rfl, tail, fun _ hb => by cases hb⟩
      | some str =>
        refine ⟨.ok str, s₂, _, rfl, rfl, tail, fun a ha => ⟨[n.toNat], ?_, rfl⟩⟩
        cases ha
        rw [strLen, strBytes_of_fromUtf8 hf, E _ _ _ _ hb]

theorem getStringIf (E : Exact σ) (b : Bool) :
    Tells (Tracing.getStringIf b : T σ (Option String)) (Decoder.getStringIf b) fun a ns => ns = (a.map strLen).toList := by
  unfold Tracing.getStringIf Decoder.getStringIf
  split
  · exact (getString E).bind fun a n hn => pure _ (by subst hn; rfl)
  · exact pure _ rfl

/-- The lengths told for a packet. -/
def Lengths (p : ControlPacket) (ns : List Nat) : Prop := ∃ name, ns = name ++ textLengths p ∧ (WithProtocol p → name.length = 1) ∧ (¬ WithProtocol p → name = [])

theorem connect (E : Exact σ) : Tells (Tracing.decodeConnect : T σ ControlPacket) Decoder.decodeConnect Lengths := by
  unfold Tracing.decodeConnect Decoder.decodeConnect
  refine (getString E).bind fun name n hn => after fun _ => after fun fl => after fun k => (getString E).bind fun id n₂ hn₂ => ?_
  refine (getStringIf E _).bind fun u n₃ hn₃ => (getStringIf E _).bind fun pw n₄ hn₄ => pure _ ?_
  subst hn hn₂ hn₃ hn₄
  exact ⟨[strLen name], by simp [textLengths], fun _ => rfl, fun h => (h trivial).elim⟩

theorem publish (E : Exact σ) (pr : Profile) (fb : UInt8) (rl : Nat) :
    Tells (Tracing.decodePublish pr fb rl : T σ ControlPacket) (Decoder.decodePublish pr fb rl) Lengths := by
  unfold Tracing.decodePublish Decoder.decodePublish
  dsimp only
  cases QoS.fromBits ((fb &&& 0b00000110) >>> 1) with
  | none => exact panic
  | some q =>
    refine (getString E).bind fun t n hn => after fun _ => after fun _ => after fun _ => after fun _ => pure _ ?_
    subst hn
    exact ⟨[], rfl, fun h => h.elim, fun _ => rfl⟩

theorem subscribeLoop (E : Exact σ) (pr : Profile) (fuel rl : Nat) (acc : List Subscription) :
    Tells (Tracing.subscribeLoop pr fuel rl acc : T σ (List Subscription)) (Decoder.subscribeLoop pr fuel rl acc)
      fun a ns => (acc.map fun s => strLen s.topic) ++ ns = a.map fun s => strLen s.topic := by
  induction fuel generalizing rl acc with
  | zero => exact hang
  | succ fuel ih =>
    unfold Tracing.subscribeLoop Decoder.subscribeLoop
    split
    · refine (getString E).bind fun t n hn => after fun q => ?_
      subst hn
      split
      · exact fail _
      · refine after fun r => ?_
        cases QoS.fromBits q with
        | none => exact panic
        | some q =>
          refine (ih r (acc ++ [⟨t, q⟩])).weaken fun a n h => ?_
          rw [← h]
          simp
    · exact pure _ (by simp)

theorem unsubscribeLoop (E : Exact σ) (pr : Profile) (fuel rl : Nat) (acc : List String) :
    Tells (Tracing.unsubscribeLoop pr fuel rl acc : T σ (List String)) (Decoder.unsubscribeLoop pr fuel rl acc)
      fun a ns => acc.map strLen ++ ns = a.map strLen := by
  induction fuel generalizing rl acc with
  | zero => exact hang
  | succ fuel ih =>
    unfold Tracing.unsubscribeLoop Decoder.unsubscribeLoop
    split
    · refine (getString E).bind fun t n hn => after fun r => ?_
      subst hn
      refine (ih r (acc ++ [t])).weaken fun a n h => ?_
      rw [← h]
      simp
    · exact pure _ (by simp)

theorem subscribe (E : Exact σ) (pr : Profile) (fb : UInt8) (rl : Nat) :
    Tells (Tracing.decodeSubscribe pr fb rl : T σ ControlPacket) (Decoder.decodeSubscribe pr fb rl) Lengths := by
  unfold Tracing.decodeSubscribe Decoder.decodeSubscribe
  refine after fun i => after fun r => ?_
  split
  · exact fail _
  · refine bind (N := fun a ns => ns = a.map fun s => strLen s.topic) (fun s l => ?_) fun a n hn => pure _ ?_
    · exact (subscribeLoop E pr (avail s + 1) r []).weaken (fun a n h => by simpa using h) s l
    · subst hn
      exact ⟨[], by simp [textLengths], fun h => h.elim, fun _ => rfl⟩

theorem unsubscribe (E : Exact σ) (pr : Profile) (fb : UInt8) (rl : Nat) :
    Tells (Tracing.decodeUnsubscribe pr fb rl : T σ ControlPacket) (Decoder.decodeUnsubscribe pr fb rl) Lengths := by
  unfold Tracing.decodeUnsubscribe Decoder.decodeUnsubscribe
  refine after fun i => after fun r => ?_
  split
  · exact fail _
  · refine bind (N := fun a ns => ns = a.map strLen) (fun s l => ?_) fun a n hn => pure _ ?_
    · exact (unsubscribeLoop E pr (avail s + 1) r []).weaken (fun a n h => by simpa using h) s l
    · subst hn
      exact ⟨[], by simp [textLengths], fun h => h.elim, fun _ => rfl⟩

end Tells

variable [ByteSource σ]

/-- A packet without texts. -/
def Bare : ControlPacket → Prop
  | .pubAck _ | .pubRec _ | .pubRel _ | .pubComp _ | .pingReq | .disconnect => True
  | _ => False

/-- What is returned, if anything, is bare. -/
def GivesBare (y : M σ ControlPacket) : Prop := ∀ s p s', y s = (.ok p, s') → Bare p

theorem givesBare_bind {α : Type} {x : M σ α} {f : α → ControlPacket} (h : ∀ a, Bare (f a)) : GivesBare (x >>= fun a => (pure (f a) : M σ ControlPacket)) := by
  intro s p s' he
  rw [M.bind_apply] at he
  split at he <;> first | (cases he; exact h _) | cases he

theorem quiet_bare {y : M σ ControlPacket} (h : GivesBare y) : Tells (quiet y) y Tells.Lengths := by
  intro s l
  refine ⟨(y s).1, (y s).2, l, rfl, rfl, ⟨[], [], by simp [announced], .inl rfl⟩, fun p hp => ⟨[], ?_, by simp [announced]⟩⟩
  have hb := h s p (y s).2 (by rw [← hp])
  refine ⟨[], ?_, fun hn => ?_, fun _ => rfl⟩ <;> cases p <;> first | rfl | exact hb.elim | exact hn.elim

theorem body_tells (E : Exact σ) (pr : Profile) (fb : UInt8) (rl : Nat) :
    Tells (decodeBody pr fb rl : T σ ControlPacket) (Decoder.decodeBody pr fb rl) Tells.Lengths := by
  unfold decodeBody
  dsimp only
  by_cases h1 : fb >>> 4 = packetTypeConnect
  · rw [if_pos h1, Decoder.decodeBody, if_pos h1]; exact Tells.connect E
  by_cases h2 : fb >>> 4 = packetTypePublish
  · rw [if_neg h1, if_pos h2, Decoder.decodeBody, if_neg h1, if_pos h2]; exact Tells.publish E pr fb rl
  rw [if_neg h1, if_neg h2]
  by_cases h3 : fb >>> 4 = packetTypeSubscribe
  · rw [if_pos h3, Decoder.decodeBody, h3]
    exact Tells.subscribe E pr fb rl
  by_cases h4 : fb >>> 4 = packetTypeUnsubscribe
  · rw [if_neg h3, if_pos h4, Decoder.decodeBody, h4]
    exact Tells.unsubscribe E pr fb rl
  rw [if_neg h3, if_neg h4]
  refine quiet_bare ?_
  unfold Decoder.decodeBody
  dsimp only
  rw [if_neg h1, if_neg h2, if_neg h3, if_neg h4]
  repeat' split
  · exact givesBare_bind fun _ => trivial
  · exact givesBare_bind fun _ => trivial
  · exact givesBare_bind fun _ => trivial
  · exact givesBare_bind fun _ => trivial
  · intro s p s' he; cases he; trivial
  · intro s p s' he; cases he; trivial
  · intro s p s' he; cases he

theorem packet_tells (E : Exact σ) (pr : Profile) : Tells (readPacket pr : T σ ControlPacket) (Decoder.readPacket pr) Tells.Lengths :=
  Tells.after fun _ => Tells.after fun _ => body_tells E pr _ _

/-! ### The sources -/

theorem exact_plain : Exact Plain := by
  intro n s s' bs h
  simp only [getBytes] at h
  split at h
  · cases h
  split at h
  · cases h; rename_i h; rw [List.length_take]; omega
  · unfold Plain.short at h; split at h <;> cases h

theorem wait_enough (al : Alloc) (n : Nat) (s : RStream) {s' : RStream} {u : Unit} (h : RStream.waitForData al n s = (.ok u, s')) : n ≤ s'.buf.data.length := by
  fun_induction RStream.waitForData al n s with
  | case1 => cases h
  | case2 _ _ _ _ _ _ ih => exact ih h
  | case7 s hs => cases h; exact Nat.not_lt.mp hs
  | _ => cases h

theorem loop_exact (al : Alloc) (n : Nat) (acc : List UInt8) (s : RStream) {s' : RStream} {bs : List UInt8}
    (h : RStream.getBytesLoop al n acc s = (.ok bs, s')) : bs.length = acc.length + n := by
  fun_induction RStream.getBytesLoop al n acc s with
  | case1 => cases h; rfl
  | case3 n acc s hn w hw u s₁ hs ih =>
    have := ih h
    have hle := wait_enough al _ _ hs
    have hr : w ≤ n := by
      show s.roundSize n ≤ n
      unfold RStream.roundSize
      split <;> omega
    rw [this, List.length_append, List.length_take]
    omega
  | _ => cases h

theorem exact_stream (al : Alloc) : letI := RStream.source al; Exact RStream := by
  intro n s s' bs h
  have h : RStream.getBytes al n s = (.ok bs, s') := h
  unfold RStream.getBytes at h
  split at h
  · cases h
  · have := loop_exact al n [] s h
    simpa using this

end Ratel.Tracing
