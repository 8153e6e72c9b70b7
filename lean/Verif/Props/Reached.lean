/-
C81: the square in the bound on the traffic is reached.
-/
import Verif.Props.Traffic
import Verif.Props.Orders
import Verif.Props.Conformance

namespace Ratel

open Decoder Encoder Spec Sys

namespace Crowd

/-- A client id for each connection. -/
def name (c : Nat) : String := String.ofList (List.replicate c 'a')

theorem name_inj {c d : Nat} (h : name c = name d) : c = d := by
  have := congrArg (fun s => s.toList.length) h
  simpa [name] using this

/-- Connections below `k` subscribe, those from `k` to below `2 * k` publish one message; none has a client id. -/
def packets (k c : Nat) : List ClientPacket :=
  if c < k then [hello "", .subscribe 1 [("t", .atMostOnce)]] else if c < k + k then [hello "", .publish blank] else []

/-- Their bytes; the sockets take `n` writes. -/
def peer (k : Nat) (n : Nat → Nat) (c : ConnId) : Peer :=
  ⟨someAddr, name c, [clientBytes (packets k c)], .eof, List.replicate (n c) (.accept 0)⟩

/-- The CONNECT of connection `c`, as the broker sees it. -/
def greeting (c : Nat) : ClientEvent := .connected ⟨.mqtt3, name c, 60, true, none, none, none⟩ someAddr c

def listens (c : Nat) : List ClientEvent := [greeting c, .controlPacket (name c) (.subscribe ⟨1, [⟨"t", .atMostOnce⟩]⟩) c]

def speaks (c : Nat) : List ClientEvent := [greeting c, .controlPacket (name c) (.publish blank) c]

/-- First all subscribe, then all publish. -/
def events (k : Nat) : List ClientEvent := (List.range k).flatMap (fun a => listens (0 + a)) ++ (List.range k).flatMap (fun a => speaks (k + a))

theorem packets_sendable (k c : Nat) : Sendable (packets k c) := by
  have hh : Legal (hello "") ∧ NoWill (hello "") ∧ (clientRest (hello "")).length < 2097152 :=
    hello_sendable "" (by unfold Fits; decide +kernel) (by decide +kernel)
  unfold packets
  split
  · intro x hx
    simp only [List.mem_cons, List.not_mem_nil, or_false] at hx
    rcases hx with rfl | rfl
    · exact hh
    · exact ⟨⟨by simp, by unfold Fits; decide +kernel⟩, trivial, by decide +kernel⟩
  · split
    · intro x hx
      simp only [List.mem_cons, List.not_mem_nil, or_false] at hx
      rcases hx with rfl | rfl
      · exact hh
      · exact ⟨⟨by decide +kernel, by decide⟩, trivial, by decide +kernel⟩
    · intro x hx; cases hx

theorem packets_length (k c : Nat) : (clientBytes (packets k c)).length ≤ 22 := by
  unfold packets
  repeat' split
  all_goals decide +kernel

theorem pick {α : Type} (f : Nat → List α) (m n c : Nat) :
    ((List.range n).flatMap fun a => if m + a = c then f (m + a) else []) = if m ≤ c ∧ c < m + n then f c else [] := by
  induction n with
  | zero => rw [if_neg (by omega)]; rfl
  | succ n ih =>
    rw [List.range_succ, List.flatMap_append, ih]
    by_cases h : m + n = c
    · subst h
      rw [if_neg (by omega), if_pos (by omega)]
      simp
    · by_cases h' : m ≤ c ∧ c < m + n
      · rw [if_pos h', if_pos (by omega)]
        simp [h]
      · rw [if_neg h', if_neg (by omega)]
        simp [h]

theorem filter_greeting (c a : Nat) (ev : Nat → ClientEvent) (h : ∀ a, From a (ev a)) (h' : ∀ a c, From c (ev a) → a = c) :
    [greeting a, ev a].filter (From c) = if a = c then [greeting a, ev a] else [] := by
  by_cases hac : a = c
  · subst hac
    rw [if_pos rfl, List.filter_eq_self]
    intro x hx
    simp only [List.mem_cons, List.not_mem_nil, or_false] at hx
    rcases hx with rfl | rfl
    · simp [greeting, From]
    · simpa using h _
  · rw [if_neg hac, List.filter_eq_nil_iff]
    intro x hx
    simp only [List.mem_cons, List.not_mem_nil, or_false] at hx
    rcases hx with rfl | rfl
    · simp [greeting, From, hac]
    · have : ¬ From c (ev a) := fun hf => hac (h' _ _ hf)
      simpa using this

theorem filter_events (k : Nat) (n : Nat → Nat) (c : Nat) : (events k).filter (From c) = eventsOf (peer k n c) c ((packets k c).map meaning) := by
  have h1 : ∀ a, (listens a).filter (From c) = if a = c then listens a else [] := fun a =>
    filter_greeting c a (fun a => .controlPacket (name a) (.subscribe ⟨1, [⟨"t", .atMostOnce⟩]⟩) a) (fun _ => rfl) (fun _ _ h => h)
  have h2 : ∀ a, (speaks a).filter (From c) = if a = c then speaks a else [] := fun a =>
    filter_greeting c a (fun a => .controlPacket (name a) (.publish blank) a) (fun _ => rfl) (fun _ _ h => h)
  have e1 : ((List.range k).flatMap fun a => listens (0 + a)).filter (From c) = if 0 ≤ c ∧ c < 0 + k then listens c else [] := by
    rw [List.filter_flatMap, ← pick]
    exact congrArg (fun f => List.flatMap f _) (funext fun a => h1 _)
  have e2 : ((List.range k).flatMap fun a => speaks (k + a)).filter (From c) = if k ≤ c ∧ c < k + k then speaks c else [] := by
    rw [List.filter_flatMap, ← pick]
    exact congrArg (fun f => List.flatMap f _) (funext fun a => h2 _)
  unfold events
  rw [List.filter_append, e1, e2]
  have hid : idOf (peer k n c) ⟨.mqtt3, "", 60, true, none, none, none⟩ = name c := by simp [idOf, peer]
  by_cases hc : c < k
  · rw [if_pos (by omega), if_neg (by omega)]
    simp only [packets, if_pos hc, List.map_cons, List.map_nil, hello, meaning, eventsOf, hid]
    rfl
  · rw [if_neg (by omega)]
    by_cases hc' : c < k + k
    · rw [if_pos (by omega)]
      simp only [packets, if_neg hc, if_pos hc', List.map_cons, List.map_nil, hello, meaning, eventsOf, hid]
      rfl
    · rw [if_neg (by omega)]
      simp only [packets, if_neg hc, if_neg hc']
      rfl

/-- The broker has the subscription of connection `d`. -/
def Has (b : Broker) (d : Nat) : Prop := b.session (name d) = some d ∧ (name d, "t") ∈ b.subs

theorem has_listens {auth : IdentityProvider} {b : Broker} (c : Nat) :
    ∃ b', b.after auth (listens c) = some b' ∧ Has b' c ∧ ∀ d, Has b d → Has b' d := by
  refine ⟨_, rfl, ⟨?_, ?_⟩, fun d hd => ?_⟩
  · simp [Broker.packet]
  · simp [Broker.packet]
  · refine ⟨?_, ?_⟩
    · simp only [Broker.packet]
      split
      · rename_i h
        rw [name_inj h]
      · exact hd.1
    · simp only [Broker.packet]
      exact List.mem_append_left _ hd.2

theorem has_all (auth : IdentityProvider) (k : Nat) :
    ∃ b, Broker.start.after auth ((List.range k).flatMap fun a => listens (0 + a)) = some b ∧ ∀ d, d < k → Has b d := by
  induction k with
  | zero => exact ⟨_, rfl, fun d hd => by omega⟩
  | succ k ih =>
    obtain ⟨b, h1, h2⟩ := ih
    obtain ⟨b', h3, h4, h5⟩ := has_listens (auth := auth) (b := b) k
    refine ⟨b', ?_, fun d hd => ?_⟩
    · rw [List.range_succ, List.flatMap_append, after_append, h1]
      simpa using h3
    · by_cases hdk : d = k
      · rw [hdk]; exact h4
      · exact h5 d (h2 d (by omega))

theorem copies {b : Broker} {d : Nat} (h : Has b d) : 1 ≤ b.copiesTo d "t" := by
  have hm : Matches "t" "t" := matches_self (by decide +kernel)
  refine Nat.le_trans (ways_pos.mpr hm) (le_sum_of_mem (List.mem_map.mpr ⟨(name d, "t"), List.mem_filter.mpr ⟨h.2, ?_⟩, rfl⟩))
  simpa using h.1

theorem outputs_speaks {auth : IdentityProvider} (m k : Nat) {b : Broker} {d : Nat} (h : Has b d) :
    k ≤ (b.outputs auth ((List.range k).flatMap fun a => speaks (m + a)) d).length := by
  have key : ∀ k, ∃ b', b.after auth ((List.range k).flatMap fun a => speaks (m + a)) = some b' ∧ Has b' d
      ∧ k ≤ (b.outputs auth ((List.range k).flatMap fun a => speaks (m + a)) d).length := by
    intro k
    induction k with
    | zero => exact ⟨b, rfl, h, Nat.zero_le _⟩
    | succ k ih =>
      obtain ⟨b', h1, h2, h3⟩ := ih
      have h4 : Has ⟨fun c => if c = name (m + k) then some (m + k) else b'.session c, b'.subs⟩ d := by
        refine ⟨?_, h2.2⟩
        show (if name d = name (m + k) then _ else _) = _
        split
        · rename_i he; rw [name_inj he]
        · exact h2.1
      refine ⟨_, ?_, h4, ?_⟩
      · rw [List.range_succ, List.flatMap_append, after_append, h1]
        rfl
      · rw [List.range_succ, List.flatMap_append, outputs_append, h1]
        have h5 := copies h4
        have h6 : b'.outputs auth (speaks (m + k)) d = Spec.to (m + k) [.controlPacket (.connAck ⟨false, .accepted⟩)] d
            ++ (List.replicate (Broker.copiesTo ⟨fun c => if c = name (m + k) then some (m + k) else b'.session c, b'.subs⟩ d "t")
              (.controlPacket (.publish blank)) ++ []) := rfl
        have h7 : ([k].flatMap fun a => speaks (m + a)) = speaks (m + k) := by simp
        rw [h7]
        show _ ≤ (_ ++ b'.outputs auth (speaks (m + k)) d).length
        rw [h6]
        simp only [List.length_append, List.length_replicate]
        omega
  obtain ⟨_, _, _, h⟩ := key k
  exact h

theorem sumTo_const (N a : Nat) : (sumTo N fun _ => a) = N * a := by
  induction N with
  | zero => simp [sumTo]
  | succ N ih => rw [sumTo_succ, ih, Nat.succ_mul]

/-- Nobody is told to go away. -/
theorem stays {auth : IdentityProvider} {evs : List ClientEvent}
    (h : ∀ ev ∈ evs, (∃ c, ev = greeting c) ∨ ∃ id p tx, ev = .controlPacket id p tx ∧ p ≠ .pingReq) (b : Broker) (d : ConnId) :
    .disconnect ∉ b.outputs auth evs d := by
  induction evs generalizing b with
  | nil => intro h; cases h
  | cons ev evs ih =>
    have ih := ih fun e he => h e (List.mem_cons_of_mem _ he)
    rcases h ev List.mem_cons_self with ⟨c, rfl⟩ | ⟨id, p, tx, rfl, hp⟩
    · simp only [greeting, Broker.outputs, Broker.step, login, Spec.to, List.mem_append, not_or]
      refine ⟨?_, ih _⟩
      split <;> simp
    · simp only [Broker.outputs, Broker.step, List.mem_append, not_or]
      refine ⟨?_, ih _⟩
      cases p <;> simp only [Broker.packet, Spec.to, nothing] <;> first | exact absurd rfl hp | (try split) <;> simp

theorem events_sorts (k : Nat) : ∀ ev ∈ events k, (∃ c, ev = greeting c) ∨ ∃ id p tx, ev = .controlPacket id p tx ∧ p ≠ .pingReq := by
  intro ev hev
  unfold events at hev
  rcases List.mem_append.mp hev with h | h <;>
  · obtain ⟨a, _, h⟩ := List.mem_flatMap.mp h
    simp only [listens, speaks, List.mem_cons, List.not_mem_nil, or_false] at h
    rcases h with rfl | rfl
    · exact .inl ⟨_, rfl⟩
    · exact .inr ⟨_, _, _, rfl, by simp⟩

end Crowd

/-! ### C81 -/

/-- C81, the square of `C81_square` is reached, but for the factor: for every `k` there are clients that send 44 bytes times `k` altogether, publish
to plain topics only, and are sent `k` times `k` packets and more in some execution. -/
theorem C81_square_reached (env : Env) (k : Nat) : ∃ (peers : ConnId → Peer) (sched : List Step),
    (sumTo (2 * k) fun c => (peers c).segs.flatten.length) ≤ 44 * k ∧ (∀ c, 2 * k ≤ c → (peers c).segs.flatten = [])
    ∧ (∀ c q ps, Decodes env.profile (peers c).segs.flatten (peers c).fin ps → .publish q ∈ ps → PlainTopic q.message.topic)
    ∧ k * k ≤ sumTo (2 * k) fun d => ((run env (init peers) sched).conns d).delivered.length := by
  obtain ⟨n, hn⟩ := C77_any_servable env (Crowd.events k)
  have hbytes : ∀ c, (Crowd.peer k n c).segs.flatten = clientBytes (Crowd.packets k c) := fun c => by simp [Crowd.peer]
  have hserv : Servable env (Crowd.peer k n) (Crowd.events k) := by
    refine ⟨fun c => ⟨_, by rw [hbytes]; exact decodes_client _ _ _ (Crowd.packets_sendable k c), by
        rw [Crowd.filter_events k n c]; exact List.prefix_refl _⟩, fun ev hev => ?_, fun p addr c hp => ?_, fun d => ?_⟩
    · rcases Crowd.events_sorts k ev hev with ⟨c, rfl⟩ | ⟨id, p, tx, rfl, _⟩
      · exact ⟨c, rfl⟩
      · exact ⟨tx, rfl⟩
    · rcases Crowd.events_sorts k _ hp with ⟨c, h⟩ | ⟨_, _, _, h, _⟩
      · cases h; simp [login]
      · cases h
    · have := Crowd.stays (auth := env.auth) (Crowd.events_sorts k) Broker.start d
      have hn : ∀ l : List ServerEvent, .disconnect ∉ l → fromAway l = [] := by
        intro l hl
        induction l with
        | nil => rfl
        | cons x l ih =>
          have hx : x ≠ .disconnect := fun he => hl (by rw [he]; exact List.mem_cons_self)
          simpa [fromAway, hx] using ih fun he => hl (List.mem_cons_of_mem _ he)
      rw [hn _ this]
      exact Nat.zero_le _
  obtain ⟨sched, _, _, h3⟩ := hn (Crowd.peer k n) (fun c => by
      rw [hbytes]
      have := Crowd.packets_length k c
      omega) (fun c => by simp [Crowd.peer]) hserv
  refine ⟨Crowd.peer k n, sched, ?_, fun c hc => ?_, fun c q ps hd hq => ?_, ?_⟩
  · refine Nat.le_trans (sumTo_le (g := fun _ => 22) fun c _ => by rw [hbytes]; exact Crowd.packets_length k c) ?_
    rw [Crowd.sumTo_const]
    omega
  · rw [hbytes]
    have h1 : ¬ c < k := fun h => by omega
    have h2 : ¬ c < k + k := fun h => by omega
    simp [Crowd.packets, h1, h2, clientBytes]
  · rw [hbytes] at hd
    obtain ⟨x, hx, he⟩ := List.mem_map.mp ((decodes_client_only (Crowd.packets_sendable k c) hd).subset hq)
    unfold Crowd.packets at hx
    split at hx
    · simp only [List.mem_cons, List.not_mem_nil, or_false] at hx
      rcases hx with rfl | rfl <;> cases he
    · split at hx
      · simp only [List.mem_cons, List.not_mem_nil, or_false] at hx
        rcases hx with rfl | rfl <;> cases he
        exact ⟨by decide, by decide⟩
      · cases hx
  · obtain ⟨b, hb, hhas⟩ := Crowd.has_all env.auth k
    have hk : ∀ d, d < k → k ≤ ((run env (init (Crowd.peer k n)) sched).conns d).delivered.length := by
      intro d hd
      rw [(h3 d).1]
      unfold Crowd.events
      rw [outputs_append, hb, List.length_append]
      exact Nat.le_trans (Crowd.outputs_speaks k k (hhas d hd)) (Nat.le_add_left _ _)
    have hs : (sumTo k fun _ => k) ≤ sumTo k fun d => ((run env (init (Crowd.peer k n)) sched).conns d).delivered.length := sumTo_le hk
    have hs' : (sumTo k fun _ => k) = k * k := Crowd.sumTo_const k k
    have hmore : ∀ (f : Nat → Nat) j, sumTo k f ≤ sumTo (k + j) f := by
      intro f j
      induction j with
      | zero => exact Nat.le_refl _
      | succ j ih => rw [Nat.add_succ, sumTo_succ]; omega
    have := hmore (fun d => ((run env (init (Crowd.peer k n)) sched).conns d).delivered.length) k
    rw [Nat.two_mul]
    omega

end Ratel
