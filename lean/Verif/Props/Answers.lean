/-
Requests and their answers: C146.
-/
import Verif.Spec.Answers
import Verif.Props.Settled

namespace Ratel

open Encoder Spec Sys

namespace Sys

/-- The answers among some server events. -/
def repliesIn (evs : List ServerEvent) : List ServerEvent :=
  evs.filter fun
    | .controlPacket p => notMessage p
    | .disconnect => true

theorem repliesIn_append (a b : List ServerEvent) : repliesIn (a ++ b) = repliesIn a ++ repliesIn b := List.filter_append ..

theorem repliesIn_copies (v : View) (q : PublishPacket) : repliesIn (v.copies q) = [] := by
  refine List.filter_eq_nil_iff.mpr fun e he => ?_
  unfold View.copies at he
  split at he
  · rw [List.eq_of_mem_replicate he]; simp [notMessage]
  · cases he

/-- A client that stays gets the answers to its own packets. -/
theorem view_replies (v : View) (ho : v.online = true) (xs : List Sight) (h : .disconnect ∉ mineOf xs) :
    repliesIn (v.outputs xs) = ((mineOf xs).filterMap answerOf).map .controlPacket := by
  induction xs generalizing v with
  | nil => rfl
  | cons x xs ih =>
    rw [View.outputs, repliesIn_append]
    cases x with
    | theirs q =>
      show repliesIn (v.copies q) ++ repliesIn (v.outputs xs) = _
      rw [ih v ho h, repliesIn_copies]
      rfl
    | mine p =>
      have hm : mineOf (.mine p :: xs) = p :: mineOf xs := rfl
      rw [hm] at h ⊢
      have hd : p ≠ .disconnect := fun e => h (by rw [e]; exact List.mem_cons_self)
      have h' : .disconnect ∉ mineOf xs := fun e => h (List.mem_cons_of_mem _ e)
      have ho' : (v.step (.mine p)).1.online = true := by
        cases p with
        | disconnect => exact absurd rfl hd
        | _ => exact ho
      rw [ih _ ho' h', List.filterMap_cons]
      cases p with
      | publish q => rw [show (v.step (.mine (.publish q))).2 = v.copies q from rfl, repliesIn_copies]; rfl
      | pingReq => simp only [View.step, ho, answerOf]; rfl
      | disconnect => exact absurd rfl hd
      | _ => rfl

/-- A client's view at any moment. -/
theorem view_at {env : Env} {peers : ConnId → Peer} {s : Sys} (hinv : Inv env peers s) {d : ConnId} {p : ConnectPacket}
    (hp : Decodes env.profile (peers d).segs.flatten (peers d).fin [.connect p]) (hl : login env.auth p = .accepted)
    (ho : OwnIds env peers (· ≠ d)) :
    (s.served.filter (From d) = [] ∧ (s.conns d).delivered = [])
    ∨ ∃ sights, s.served.filter (From d) = eventsOf (peers d) d (.connect p :: mineOf sights)
        ∧ Decodes env.profile (peers d).segs.flatten (peers d).fin (.connect p :: mineOf sights)
        ∧ (s.conns d).delivered <+: welcome :: (View.mk true []).outputs sights
        ∧ (s.handler = .idle → (s.conns d).delivered = welcome :: (View.mk true []).outputs sights) := by
  have hord := reads_orderly_served hinv.reads
  rcases split_connect hord (served_from hinv.reads) ho hp with h | ⟨pre, post, ps, he, hd, hps, hpre, hpost⟩
  · left
    have hnone : ∀ ev ∈ s.served, ¬ From d ev := fun ev hev => (h ev hev).2
    refine ⟨List.filter_eq_nil_iff.mpr fun ev hev => by simpa using hnone ev hev, ?_⟩
    obtain ⟨h1, _⟩ := (sees_start (idOf (peers d) p) d).run (auth := env.auth) _ fun ev hev => (h ev hev).1
    rw [(offline (mineOf_none hnone)).2] at h1
    exact List.prefix_nil.mp ((hinv.serves.delivered d).trans h1)
  · right
    obtain ⟨h1, h2⟩ := view_outputs (auth := env.auth) (id := idOf (peers d) p) (addr := (peers d).addr)
      (p := { p with clientId := idOf (peers d) p }) rfl ((login_id env.auth p _).trans hl) hpre hpost
    have hmine : mineOf (post.filterMap (sightOf d)) = ps :=
      (List.map_inj_right (fun a b hab => by injection hab)).mp ((mineOf_sights hpost).trans hps)
    refine ⟨post.filterMap (sightOf d), ?_, by rw [hmine]; exact hd, ?_, fun hh => ?_⟩
    · rw [hmine, he, List.filter_append, List.filter_cons, if_pos (by simp [From]), hps, List.filter_eq_nil_iff.mpr fun ev hev => by
        simpa using (hpre ev hev).2]
      rfl
    · rw [← he] at h1
      exact (hinv.serves.delivered d).trans h1
    · obtain ⟨b, hb, hdel⟩ := rest_of_idle hinv.serves hh
      rw [← he] at h2
      rw [hdel d, (h2 b hb).2]

end Sys

/-- C146. Every request is answered, in order, once: let the broker run for ever without crashing, every task getting its turn again and again
and every socket answering a write again and again, and take a client whose CONNECT is accepted, whose client id no other connection uses,
and that does not send DISCONNECT. Of what is written to its socket, that which is not a message is at any time the first part of: a
CONNACK, and then the answers to its SUBSCRIBEs, UNSUBSCRIBEs and PINGREQs in the order sent. And from some moment on all of the answers to
the packets sent by now have been written, unless the client's read task spins. -/
theorem C146_answers (env : Env) (peers : ConnId → Peer) (N : Nat) (σ : Nat → OStep) (he : Endless N σ)
    (hup : ∀ n, (Live.run env (Live.init peers) (firstOf σ n)).opn.sys.handler ≠ .crashed)
    (n : Nat) (d : Nat) (hdN : d < N) (p : ConnectPacket) (ps : List ControlPacket)
    (hp : Decodes env.profile (given peers (firstOf σ n) d).segs.flatten (given peers (firstOf σ n) d).fin (.connect p :: ps))
    (hl : login env.auth p = .accepted) (ho : ∀ m, OwnIds env (given peers (firstOf σ m)) (· ≠ d))
    (hstay : ∀ m qs, Decodes env.profile (given peers (firstOf σ m) d).segs.flatten (given peers (firstOf σ m) d).fin (.connect p :: qs) →
      .disconnect ∉ qs)
    (hspin : ∀ m, ((Live.run env (Live.init peers) (firstOf σ m)).opn.sys.conns d).phase ≠ .stuck) :
    (∀ k, n ≤ k → ∃ qs, Decodes env.profile (given peers (firstOf σ k) d).segs.flatten (given peers (firstOf σ k) d).fin (.connect p :: qs)
      ∧ ((Live.run env (Live.init peers) (firstOf σ k)).opn.sys.conns d).written.filter notMessage
          <+: .connAck ⟨false, .accepted⟩ :: qs.filterMap answerOf)
    ∧ ∃ m, ∀ k, m ≤ k → .connAck ⟨false, .accepted⟩ :: ps.filterMap answerOf
        <+: ((Live.run env (Live.init peers) (firstOf σ k)).opn.sys.conns d).written.filter notMessage := by
  have hU : Live.Up env peers σ := Live.up_of he hup
  have hmap : ∀ ws : List ControlPacket, (ws.filter notMessage).map ServerEvent.controlPacket = repliesIn (ws.map .controlPacket) := by
    intro ws
    rw [repliesIn, List.filter_map]
    rfl
  have hinj : ∀ a b : List ControlPacket, a.map ServerEvent.controlPacket <+: b.map .controlPacket → a <+: b := by
    intro a b h
    induction a generalizing b with
    | nil => exact List.nil_prefix
    | cons x a ih =>
      cases b with
      | nil => simp at h
      | cons y b =>
        obtain ⟨e, h⟩ := List.cons_prefix_cons.mp h
        injection e with e
        exact List.cons_prefix_cons.mpr ⟨e, ih b h⟩
  have hp1 : ∀ k, n ≤ k → Decodes env.profile (given peers (firstOf σ k) d).segs.flatten (given peers (firstOf σ k) d).fin [.connect p] :=
    fun k hk => Decodes.pre (a := [.connect p]) (b := ps) (Live.decodes_mono (peers := peers) (σ := σ) hk hp)
  have hview : ∀ k, n ≤ k → _ := fun k hk => view_at (Live.inv (env := env) (peers := peers) (σ := σ) k) (hp1 k hk) hl (ho k)
  refine ⟨fun k hk => ?_, ?_⟩
  · have hwd : ((Live.nth env peers σ k).opn.sys.conns d).written.map .controlPacket <+: ((Live.nth env peers σ k).opn.sys.conns d).delivered := by
      refine List.IsPrefix.trans ?_ (Live.begun_sent (env := env) (peers := peers) (σ := σ) k d)
      unfold Live.begun
      rw [List.map_append]
      exact List.prefix_append _ _
    rw [(Live.same k).delivered] at hwd
    rcases hview k hk with ⟨_, h⟩ | ⟨sights, _, h1, h2, _⟩
    · rw [h] at hwd
      have := List.map_eq_nil_iff.mp (List.prefix_nil.mp hwd)
      refine ⟨[], hp1 k hk, ?_⟩
      show List.filter notMessage ((Live.nth env peers σ k).opn.sys.conns d).written <+: _
      rw [this]
      exact List.nil_prefix
    · refine ⟨mineOf sights, h1, hinj _ _ ?_⟩
      rw [hmap]
      have := (hwd.trans h2).filter (fun | .controlPacket p => notMessage p | .disconnect => true)
      refine List.IsPrefix.trans this ?_
      show welcome :: repliesIn ((View.mk true []).outputs sights) <+: _
      rw [view_replies _ rfl _ (hstay k _ h1)]
      exact List.prefix_rfl
  · obtain ⟨m₁, hm₁, h1⟩ := Live.gets_handled he hU n hdN hp
    have h1 := h1.resolve_left (hspin m₁)
    obtain ⟨m₂, hm₂, hidle⟩ := Live.idle_again he hU m₁
    have h1 := h1.trans ((Live.served_mono hm₂).filter _)
    have hlog := (Live.same (env := env) (peers := peers) (σ := σ) m₂).log
    rw [hlog] at h1
    rw [(Live.same m₂).handler] at hidle
    rcases hview m₂ (by omega) with ⟨h, _⟩ | ⟨sights, h2, h3, _, h5⟩
    · have h1 : _ <+: List.filter _ (Sys.served _) := h1
      rw [h] at h1
      simp [eventsOf] at h1
    have h5 := h5 hidle
    rw [← (Live.same m₂).delivered] at h5
    have hps : ps <+: mineOf sights := by
      have h1 : _ <+: List.filter _ (Sys.served _) := h1
      rw [h2] at h1
      have hlen := h1.length_le
      simp only [eventsOf, List.length_cons, List.length_map] at hlen
      rcases decodes_compare (Live.decodes_mono (peers := peers) (σ := σ) (show n ≤ m₂ by omega) hp) h3 with h | h
      · exact (List.cons_prefix_cons.mp h).2
      · have h := (List.cons_prefix_cons.mp h).2
        rw [h.eq_of_length_le (by omega)]
        exact List.prefix_rfl
    have hno : .disconnect ∉ ((Live.nth env peers σ m₂).opn.sys.conns d).delivered := by
      have hinv := Live.inv (env := env) (peers := peers) (σ := σ) m₂
      have hpre := hinv.serves.delivered d
      rw [← (Live.same m₂).delivered] at hpre
      exact fun hm => never_away (reads_orderly_served hinv.reads) (served_from hinv.reads) (ho m₂) (hp1 m₂ (by omega)) hl (hstay m₂) (hpre.subset hm)
    obtain ⟨ws, hws⟩ := Live.packets_all hno
    obtain ⟨m₃, hm₃, _, hw⟩ := Live.gets_written he m₂ hdN (ws := ws) (by rw [hws]; exact List.prefix_rfl)
    refine ⟨m₃, fun k hk => ?_⟩
    have hw := (hw.trans (Live.written_mono hk d)).filter notMessage
    refine List.IsPrefix.trans (hinj _ _ ?_) hw
    rw [hmap, ← hws, h5]
    show _ <+: welcome :: repliesIn ((View.mk true []).outputs sights)
    rw [view_replies _ rfl _ (hstay m₂ _ h3)]
    exact List.cons_prefix_cons.mpr ⟨rfl, (hps.filterMap _).map _⟩

/-! ### The hypotheses can be met -/

-- C146: "a" gets its CONNACK and its SUBACK, and these only
example : (∀ k, 14 ≤ k → ((Live.run exampleEnv (Live.init quiet) (firstOf evening k)).opn.sys.conns 0).written.filter notMessage
      <+: [.connAck ⟨false, .accepted⟩, .subAck ⟨1, [.successQoS0]⟩])
    ∧ ∃ m, ∀ k, m ≤ k → ((Live.run exampleEnv (Live.init quiet) (firstOf evening k)).opn.sys.conns 0).written.filter notMessage
      = [.connAck ⟨false, .accepted⟩, .subAck ⟨1, [.successQoS0]⟩] := by
  have hspin : ∀ m, ((Live.run exampleEnv (Live.init quiet) (firstOf evening m)).opn.sys.conns 0).phase ≠ .stuck := evening_spin0
  obtain ⟨h1, m, h2⟩ := C146_answers exampleEnv quiet 3 evening evening_endless evening_up 14 0 (by omega) ⟨.mqtt3, "a", 60, true, none, none, none⟩
    [.subscribe ⟨1, [⟨"t", .atMostOnce⟩]⟩] evening_sent rfl evening_own
    (fun m qs hqs hm => (evening_packets 0 _ ((evening_decodes hqs).subset (List.mem_cons_of_mem _ hm))).2.1 rfl) hspin
  have h1' : ∀ k, 14 ≤ k → ((Live.run exampleEnv (Live.init quiet) (firstOf evening k)).opn.sys.conns 0).written.filter notMessage
      <+: [.connAck ⟨false, .accepted⟩, .subAck ⟨1, [.successQoS0]⟩] := by
    intro k hk
    obtain ⟨qs, hqs, h⟩ := h1 k hk
    have hq : qs <+: [.subscribe ⟨1, [⟨"t", .atMostOnce⟩]⟩] := (List.cons_prefix_cons.mp (evening_decodes hqs)).2
    exact h.trans (List.cons_prefix_cons.mpr ⟨rfl, hq.filterMap _⟩)
  refine ⟨h1', max m 14, fun k hk => ?_⟩
  exact (h1' k (by omega)).eq_of_length_le (h2 k (by omega)).length_le

end Ratel
