/-
How much traffic a given input can make.
-/
import Verif.Proofs.SysBound
import Verif.Proofs.DecoderInv
import Verif.Proofs.SysRealize

namespace Ratel

open Decoder Encoder Spec Sys

/-- The number of topic filters a packet subscribes to. -/
def filtersOf : ControlPacket → Nat
  | .subscribe s => s.subscriptions.length
  | _ => 0

/-- The number of topic filters an event subscribes to. -/
def filtersIn : ClientEvent → Nat
  | .controlPacket _ p _ => filtersOf p
  | _ => 0

/-- A packet is two bytes at least, and a SUBSCRIBE has three more for each filter. -/
theorem wellFormed_cost {first : Nat} {body : List UInt8} {p : ControlPacket} (h : Spec.WellFormed first body p) : 3 * filtersOf p ≤ body.length := by
  cases p with
  | subscribe s =>
    obtain ⟨_, _, _, rfl⟩ := h
    have key : ∀ l : List Subscription, 3 * l.length ≤ (l.flatMap fun f => str f.topic ++ [byte (qosNum f.qos)]).length := by
      intro l
      induction l with
      | nil => exact Nat.le_refl _
      | cons x l ih =>
        rw [List.flatMap_cons, List.length_append, List.length_append]
        have : 2 ≤ (str x.topic).length := by simp [str, twoBytes]
        simp only [List.length_cons, List.length_nil] at *
        omega
    have := key s.subscriptions
    rw [List.length_append]
    simp only [filtersOf]
    omega
  | _ => exact Nat.zero_le _

theorem decodes_cost {pr : Profile} {ps : List ControlPacket} : ∀ {pl u : Plain}, readMany pr ps.length pl = (.ok ps, u) →
    (ps.map fun p => 2 + 3 * filtersOf p).sum ≤ pl.bytes.length := by
  induction ps with
  | nil => intro pl u _; exact Nat.zero_le _
  | cons p ps ih =>
    intro pl u h
    rw [List.length_cons, readMany, M.bind_eq_ok] at h
    obtain ⟨q, t, h1, h⟩ := h
    rw [M.bind_eq_ok] at h
    obtain ⟨qs, t', h2, h⟩ := h
    simp only [M.pure_apply, Prod.mk.injEq, Res.ok.injEq, List.cons.injEq] at h
    obtain ⟨⟨rfl, rfl⟩, rfl⟩ := h
    have h3 := ih h2
    obtain ⟨first, lf, n, body, hf, _, htook, hw, _⟩ := readPacket_took h1
    have := wellFormed_cost hw
    have hl : 1 ≤ lf.length := by cases hf <;> simp
    have hb := congrArg List.length htook.bytes
    simp only [List.length_append, List.length_cons, List.map_cons, List.sum_cons] at *
    omega

theorem eventsOf_cost (peer : Peer) (c : ConnId) (ps : List ControlPacket) :
    ((eventsOf peer c ps).map fun ev => 2 + 3 * filtersIn ev).sum ≤ (ps.map fun p => 2 + 3 * filtersOf p).sum := by
  cases ps with
  | nil => exact Nat.le_refl _
  | cons p ps =>
    cases p with
    | connect q =>
      simp only [eventsOf, List.map_cons, List.sum_cons, List.map_map, filtersIn, filtersOf]
      exact Nat.le_refl _
    | _ => exact Nat.zero_le _

theorem sum_prefix {l l' : List ClientEvent} (h : l <+: l') (f : ClientEvent → Nat) : (l.map f).sum ≤ (l'.map f).sum := by
  obtain ⟨t, rfl⟩ := h
  rw [List.map_append, List.sum_append]
  omega

theorem sum_le_filters {N : Nat} {evs : List ClientEvent} (h : ∀ ev ∈ evs, ∃ c : Nat, c < N ∧ From c ev) (f : ClientEvent → Nat) :
    (evs.map f).sum ≤ sumTo N fun c => ((evs.filter fun ev => From c ev).map f).sum := by
  induction evs with
  | nil => exact Nat.zero_le _
  | cons ev evs ih =>
    obtain ⟨c, hc, hf⟩ := h ev List.mem_cons_self
    have h1 := ih fun e he => h e (List.mem_cons_of_mem _ he)
    have key : ∀ (N : Nat), c < N → ∀ g g' : Nat → Nat, g' c = f ev + g c → (∀ d, g d ≤ g' d) → f ev + sumTo N g ≤ sumTo N g' := by
      intro N hN g g' h1 h2
      induction N with
      | zero => exact absurd hN (Nat.not_lt_zero _)
      | succ N ih =>
        rw [sumTo_succ, sumTo_succ]
        by_cases hcN : c = N
        · subst hcN
          have := sumTo_le (N := c) fun d _ => h2 d
          omega
        · have := ih (by omega)
          have := h2 N
          omega
    have := key N hc (fun c => ((evs.filter fun ev => From c ev).map f).sum) (fun c => (((ev :: evs).filter fun ev => From c ev).map f).sum)
      (by simp [hf])
      (fun d => by simp only [List.filter_cons]; split <;> simp)
    simp only [List.map_cons, List.sum_cons]
    omega

/-- The events handled cost at least two bytes each, and three for each filter subscribed to. -/
theorem orderly_cost {env : Env} {peers : ConnId → Peer} {N : Nat} {evs : List ClientEvent} (ho : Orderly env peers evs)
    (hf : ∀ ev ∈ evs, ∃ c : Nat, c < N ∧ From c ev) :
    2 * evs.length + 3 * (evs.map filtersIn).sum ≤ sumTo N fun c => (peers c).segs.flatten.length := by
  have h1 := sum_le_filters hf fun ev => 2 + 3 * filtersIn ev
  have h2 : (evs.map fun ev => 2 + 3 * filtersIn ev).sum = 2 * evs.length + 3 * (evs.map filtersIn).sum := by
    clear h1 hf ho
    induction evs with
    | nil => rfl
    | cons ev evs ih => simp only [List.map_cons, List.sum_cons, List.length_cons, ih]; omega
  rw [← h2]
  refine Nat.le_trans h1 (sumTo_le fun c _ => ?_)
  obtain ⟨ps, ⟨u, hd⟩, hp⟩ := ho c
  exact Nat.le_trans (sum_prefix hp _) (Nat.le_trans (eventsOf_cost _ _ _) (decodes_cost hd))

/-! ### What the sequential broker sends in all -/

theorem sumTo_zero (N : Nat) : (sumTo N fun _ => 0) = 0 := by
  induction N with
  | zero => rfl
  | succ N ih => rw [sumTo_succ, ih]

theorem sumTo_add (N : Nat) (f g : Nat → Nat) : (sumTo N fun c => f c + g c) = sumTo N f + sumTo N g := by
  induction N with
  | zero => rfl
  | succ N ih => rw [sumTo_succ, sumTo_succ, sumTo_succ, ih]; omega

theorem sumTo_single (N : Nat) (x : Option Nat) (k : Nat) : (sumTo N fun c => if x = some c then k else 0) ≤ k := by
  have key : ∀ N, (∀ c, c < N → x ≠ some c) → (sumTo N fun c => if x = some c then k else 0) = 0 := by
    intro N h
    rw [sumTo_congr (g := fun _ => 0) fun c hc => if_neg (h c hc), sumTo_zero]
  induction N with
  | zero => exact Nat.zero_le _
  | succ N ih =>
    rw [sumTo_succ]
    by_cases hx : x = some N
    · rw [if_pos hx, key N fun c hc => by rw [hx]; intro h; cases h; exact absurd hc (Nat.lt_irrefl _)]
      omega
    · rw [if_neg hx]; exact ih

theorem sumTo_to (N : Nat) (c : ConnId) (l : List ServerEvent) : (sumTo N fun d => (Spec.to c l d).length) ≤ l.length := by
  refine Nat.le_trans (Nat.le_of_eq (sumTo_congr fun d _ => ?_)) (sumTo_single N (some c) l.length)
  unfold Spec.to
  by_cases h : d = c
  · rw [if_pos h, if_pos (congrArg some h.symm)]
  · rw [if_neg h, if_neg fun h' => h (Option.some.inj h').symm]; rfl

/-- A message on a plain topic makes no more copies in all than there are subscriptions. -/
theorem copies_all (N : Nat) (b : Broker) {t : String} (ht : PlainTopic t) : (sumTo N fun d => b.copiesTo d t) ≤ b.subs.length := by
  unfold Broker.copiesTo
  generalize b.subs = es
  induction es with
  | nil => simp [sumTo_zero]
  | cons e es ih =>
    have : ∀ d : Nat, (((e :: es).filter fun e => b.session e.1 = some d).map fun e => ways e.2 t).sum
        = (if b.session e.1 = some d then ways e.2 t else 0) + ((es.filter fun e => b.session e.1 = some d).map fun e => ways e.2 t).sum := by
      intro d
      rw [List.filter_cons]
      by_cases h : b.session e.1 = some d
      · rw [if_pos (by simpa using h), if_pos h]; simp
      · rw [if_neg (by simpa using h), if_neg h]; simp
    rw [sumTo_congr fun d _ => this d, sumTo_add]
    have h1 := sumTo_single N (b.session e.1) (ways e.2 t)
    have h2 := ways_plain (f := e.2) ht
    simp only [List.length_cons]
    omega

/-- One event: what is sent in all, and how many subscriptions there are afterwards. -/
theorem step_cost {auth : IdentityProvider} {b b' : Broker} {ev : ClientEvent} {out : Outputs} (N : Nat) (h : b.step auth ev = some (b', out))
    (hp : ∀ id q tx, ev = .controlPacket id (.publish q) tx → PlainTopic q.message.topic) :
    (sumTo N fun d => (out d).length) ≤ max 2 b.subs.length ∧ b'.subs.length ≤ b.subs.length + filtersIn ev := by
  have hto := sumTo_to N
  have hno : (sumTo N fun d => (nothing d).length) = 0 := sumTo_zero N
  cases ev with
  | connected p addr tx =>
    simp only [Broker.step] at h
    have := hto tx
    split at h
    · cases h; have := this [.controlPacket (.connAck ⟨false, .accepted⟩)]; simp only [List.length_singleton] at this; exact ⟨by omega, Nat.le_add_right _ _⟩
    · cases h; have := this [.controlPacket (.connAck ⟨false, .notAuthorized⟩), .disconnect]; simp only [List.length_cons, List.length_nil] at this; exact ⟨by omega, Nat.le_add_right _ _⟩
    · cases h
  | controlPacket id p tx =>
    have := hto tx
    cases p <;> simp only [Broker.step, Broker.packet, Option.some.injEq, Prod.mk.injEq] at h <;> obtain ⟨rfl, rfl⟩ := h
    case publish q =>
      simp only [List.length_replicate]
      have := copies_all N b (hp id q tx rfl)
      exact ⟨by omega, Nat.le_add_right _ _⟩
    case subscribe s =>
      have := hto tx [.controlPacket (.subAck ⟨s.packetId, s.subscriptions.map fun _ => .successQoS0⟩)]
      simp only [List.length_singleton, List.length_append, List.length_map, filtersIn, filtersOf] at *
      exact ⟨by omega, Nat.le_refl _⟩
    case unsubscribe u =>
      have := hto tx [.controlPacket (.unsubAck u.packetId)]
      have h2 := counting_length b.subs (.unsubscribe id u.topics) (by simp)
      exact ⟨Nat.le_trans this (by simp only [List.length_singleton]; omega), Nat.le_trans h2 (Nat.le_add_right _ _)⟩
    case pingReq =>
      have := hto tx [if (b.session id).isSome then .controlPacket .pingResp else .disconnect]
      exact ⟨Nat.le_trans this (by simp only [List.length_singleton]; omega), Nat.le_add_right _ _⟩
    case disconnect =>
      have h2 := counting_length b.subs (.disconnected id) (by simp)
      exact ⟨by rw [hno]; omega, Nat.le_trans h2 (Nat.le_add_right _ _)⟩
    all_goals exact ⟨by rw [hno]; omega, Nat.le_add_right _ _⟩
  | disconnected id => cases h; exact ⟨by rw [hno]; omega, Nat.le_add_right _ _⟩
  | connectionLost id =>
    cases h
    have h2 := counting_length b.subs (.connectionLost id) (by simp)
    exact ⟨by rw [hno]; omega, Nat.le_trans h2 (Nat.le_add_right _ _)⟩

theorem outputs_cost {auth : IdentityProvider} {evs : List ClientEvent} (N : Nat)
    (h : ∀ id q tx, .controlPacket id (.publish q) tx ∈ evs → PlainTopic q.message.topic) (b : Broker) :
    (sumTo N fun d => (b.outputs auth evs d).length) ≤ evs.length * max 2 (b.subs.length + (evs.map filtersIn).sum) := by
  induction evs generalizing b with
  | nil => simp only [Broker.outputs, List.length_nil, sumTo_zero]; omega
  | cons ev evs ih =>
    replace ih := ih fun id q tx hq => h id q tx (List.mem_cons_of_mem _ hq)
    cases hs : b.step auth ev with
    | none => simp only [Broker.outputs, hs, List.length_nil, sumTo_zero]; omega
    | some r =>
      obtain ⟨b', out⟩ := r
      simp only [Broker.outputs, hs, List.length_append, sumTo_add]
      obtain ⟨h1, h2⟩ := step_cost N hs fun id q tx he => h id q tx (he ▸ List.mem_cons_self)
      have h3 := ih b'
      simp only [List.map_cons, List.sum_cons, List.length_cons, Nat.add_mul, Nat.one_mul]
      have h4 : evs.length * max 2 (b'.subs.length + (evs.map filtersIn).sum) ≤ evs.length * max 2 (b.subs.length + (filtersIn ev + (evs.map filtersIn).sum)) :=
        Nat.mul_le_mul_left _ (by omega)
      omega

/-- If two events cost four bytes and two filters six: how many packets the bytes pay for. -/
theorem product_bound {e f B : Nat} (h : 2 * e + 3 * f ≤ B) : e * max 2 f ≤ max B (B * B / 24) := by
  by_cases hf : f ≤ 2
  · rw [Nat.max_eq_left hf]; omega
  · rw [Nat.max_eq_right (by omega)]
    refine Nat.le_trans ?_ (Nat.le_max_right _ _)
    rw [Nat.le_div_iff_mul_le (by omega)]
    refine Nat.le_trans ?_ (Nat.mul_le_mul h h)
    have key : ∀ x y : Nat, 4 * (x * y) ≤ (x + y) * (x + y) := by
      intro x y
      rcases Nat.le_total x y with hxy | hxy
      · obtain ⟨k, rfl⟩ := Nat.exists_eq_add_of_le hxy
        simp only [Nat.mul_add, Nat.add_mul, Nat.mul_comm k x]; omega
      · obtain ⟨k, rfl⟩ := Nat.exists_eq_add_of_le hxy
        simp only [Nat.mul_add, Nat.add_mul, Nat.mul_comm k y]; omega
    have := key (2 * e) (3 * f)
    have e1 : 2 * e * (3 * f) = 6 * (e * f) := by
      rw [Nat.mul_assoc, Nat.mul_left_comm e 3 f, ← Nat.mul_assoc]
    rw [e1] at this
    omega

end Ratel
