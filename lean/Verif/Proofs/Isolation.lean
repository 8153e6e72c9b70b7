/-
Two sequential brokers that differ only in what concerns a group of clients.
-/
import Verif.Spec.Isolation
import Verif.Proofs.SysBroker

namespace Ratel

open Spec

namespace Spec.Entries

theorem filter_unsubscribe_other (A : ClientId → Bool) (c : ClientId) (hA : A c = true) (fs : List String) (es : Entries) :
    (es.unsubscribe c fs).filter (fun e => !A e.1) = es.filter (fun e => !A e.1) := by
  induction fs generalizing es with
  | nil => rfl
  | cons f fs ih =>
    show (Entries.unsubscribe c fs (es.erase (c, f))).filter _ = _
    rw [ih]
    induction es with
    | nil => rfl
    | cons e es ih' =>
      rw [List.erase_cons]
      split
      · rename_i h
        have h : e = (c, f) := by simpa using h
        simp [h, hA]
      · simp only [List.filter_cons, ih']

theorem filter_erase_own (A : ClientId → Bool) (x : ClientId × String) (hA : A x.1 = false) (es : Entries) :
    (es.erase x).filter (fun e => !A e.1) = (es.filter (fun e => !A e.1)).erase x := by
  induction es with
  | nil => rfl
  | cons e es ih =>
    rw [List.erase_cons]
    split
    · rename_i h
      have h : e = x := by simpa using h
      subst h
      simp [hA]
    · rename_i h
      rw [List.filter_cons, List.filter_cons]
      split
      · rw [List.erase_cons, if_neg h, ih]
      · exact ih

theorem filter_unsubscribe_own (A : ClientId → Bool) (c : ClientId) (hA : A c = false) (fs : List String) (es : Entries) :
    (es.unsubscribe c fs).filter (fun e => !A e.1) = Entries.unsubscribe c fs (es.filter (fun e => !A e.1)) := by
  induction fs generalizing es with
  | nil => rfl
  | cons f fs ih =>
    show (Entries.unsubscribe c fs (es.erase (c, f))).filter _ = Entries.unsubscribe c fs ((es.filter _).erase (c, f))
    rw [ih, filter_erase_own A _ hA]

theorem filtersOf_filter (A : ClientId → Bool) (c : ClientId) (hA : A c = false) (es : Entries) :
    filtersOf c es = filtersOf c (es.filter fun e => !A e.1) := by
  unfold filtersOf
  rw [List.filter_filter]
  congr 2
  apply List.filter_congr
  intro e _
  by_cases h : e.1 = c
  · simp [h, hA]
  · simp [h]

end Spec.Entries

/-- The two states agree on everything but a group of clients, none of whom is reached on connection `d`. -/
structure AgreeBut (A : ClientId → Bool) (d : ConnId) (b b' : Spec.Broker) : Prop where
  session : ∀ c, A c = false → b.session c = b'.session c
  left : ∀ c, A c = true → b.session c ≠ some d
  right : ∀ c, A c = true → b'.session c ≠ some d
  subs : b.subs.filter (fun e => !A e.1) = b'.subs.filter (fun e => !A e.1)

namespace AgreeBut

variable {A : ClientId → Bool} {d : ConnId} {b b' : Spec.Broker}

theorem copiesTo_group (hl : ∀ c, A c = true → b.session c ≠ some d) (topic : String) :
    b.copiesTo d topic = (((b.subs.filter fun e => !A e.1).filter fun e => b.session e.1 = some d).map fun e => ways e.2 topic).sum := by
  unfold Spec.Broker.copiesTo
  rw [List.filter_filter]
  congr 2
  apply List.filter_congr
  intro e _
  by_cases h : A e.1 = true
  · have := hl e.1 h
    simp [this]
  · simp [h]

theorem copiesTo (h : AgreeBut A d b b') (topic : String) : b.copiesTo d topic = b'.copiesTo d topic := by
  rw [copiesTo_group h.left, copiesTo_group h.right, h.subs]
  congr 2
  apply List.filter_congr
  intro e he
  have hA : A e.1 = false := by simpa using (List.mem_filter.mp he).2
  rw [h.session e.1 hA]

/-- A step of a client of the group, not on connection `d`, changes nothing for the others. -/
theorem step_group (h : AgreeBut A d b b') {auth : IdentityProvider} {ev : ClientEvent} (hA : A (clientOf ev) = true)
    (hp : isPublish ev = false) (hd : ¬ From d ev) {b₁ : Spec.Broker} {out : Outputs} (hs : b.step auth ev = some (b₁, out)) :
    AgreeBut A d b₁ b' ∧ out d = [] := by
  have hforget : ∀ op : SubOp, (op = .disconnected op.client ∨ op = .connectionLost op.client) → A op.client = true →
      AgreeBut A d (b.forget op) b' := by
    intro op hop hA
    refine ⟨fun c hc => ?_, fun c hc => ?_, h.right, ?_⟩
    · have hne : c ≠ op.client := by rintro rfl; rw [hA] at hc; cases hc
      simp only [Spec.Broker.forget, if_neg hne]
      exact h.session c hc
    · simp only [Spec.Broker.forget]
      split
      · simp
      · exact h.left c hc
    · have : (b.forget op).subs = Entries.unsubscribe op.client (Entries.filtersOf op.client b.subs) b.subs := by
        rcases hop with hop | hop <;> (rw [hop]; rfl)
      rw [this, Entries.filter_unsubscribe_other A _ hA]
      exact h.subs
  cases ev with
  | connected p addr tx =>
    have htx : d ≠ tx := fun e => hd e.symm
    simp only [clientOf] at hA
    simp only [Spec.Broker.step] at hs
    split at hs
    · cases hs
      refine ⟨⟨fun c hc => ?_, fun c hc => ?_, h.right, h.subs⟩, by simp [to, htx]⟩
      · have hne : c ≠ p.clientId := by rintro rfl; rw [hA] at hc; cases hc
        simp only [if_neg hne]
        exact h.session c hc
      · dsimp only
        split
        · simpa using fun e => htx e.symm
        · exact h.left c hc
    · cases hs
      exact ⟨h, by simp [to, htx]⟩
    · cases hs
  | controlPacket id p tx =>
    have htx : d ≠ tx := fun e => hd e.symm
    simp only [clientOf] at hA
    simp only [Spec.Broker.step, Option.some.injEq] at hs
    cases p with
    | publish q => cases hp
    | subscribe s =>
      cases hs
      refine ⟨⟨h.session, h.left, h.right, ?_⟩, by simp [to, htx]⟩
      dsimp only
      rw [List.filter_append, ← h.subs]
      simp [List.filter_map, Function.comp_def, hA]
    | unsubscribe u =>
      cases hs
      refine ⟨⟨h.session, h.left, h.right, ?_⟩, by simp [to, htx]⟩
      dsimp only
      rw [Entries.filter_unsubscribe_other A _ hA, h.subs]
    | pingReq =>
      cases hs
      exact ⟨h, by simp [to, htx]⟩
    | disconnect =>
      cases hs
      exact ⟨hforget (.disconnected id) (.inl rfl) hA, rfl⟩
    | _ => cases hs; exact ⟨h, rfl⟩
  | disconnected id => cases hs; exact ⟨h, rfl⟩
  | connectionLost id => cases hs; exact ⟨hforget (.connectionLost id) (.inr rfl) hA, rfl⟩

/-- A step of another client, or a message published by anybody, is the same for both. -/
theorem step_other (h : AgreeBut A d b b') {auth : IdentityProvider} {ev : ClientEvent}
    (hA : A (clientOf ev) = false ∨ isPublish ev = true) :
    (b.step auth ev = none ∧ b'.step auth ev = none)
    ∨ ∃ b₁ b₁' out out', b.step auth ev = some (b₁, out) ∧ b'.step auth ev = some (b₁', out') ∧ AgreeBut A d b₁ b₁' ∧ out d = out' d := by
  have hforget : ∀ op : SubOp, (op = .disconnected op.client ∨ op = .connectionLost op.client) → A op.client = false →
      AgreeBut A d (b.forget op) (b'.forget op) := by
    intro op hop hA
    refine ⟨fun c hc => ?_, fun c hc => ?_, fun c hc => ?_, ?_⟩
    · simp only [Spec.Broker.forget]
      split
      · rfl
      · exact h.session c hc
    · simp only [Spec.Broker.forget]
      split
      · simp
      · exact h.left c hc
    · simp only [Spec.Broker.forget]
      split
      · simp
      · exact h.right c hc
    · have hu : ∀ b : Spec.Broker, (b.forget op).subs = Entries.unsubscribe op.client (Entries.filtersOf op.client b.subs) b.subs := by
        intro b
        rcases hop with hop | hop <;> (rw [hop]; rfl)
      rw [hu, hu, Entries.filter_unsubscribe_own A _ hA, Entries.filter_unsubscribe_own A _ hA, h.subs,
        Entries.filtersOf_filter A _ hA b.subs, Entries.filtersOf_filter A _ hA b'.subs, h.subs]
  cases ev with
  | connected p addr tx =>
    have hA : A p.clientId = false := by
      rcases hA with hA | hA
      · exact hA
      · cases hA
    simp only [Spec.Broker.step]
    cases login auth p with
    | accepted =>
      refine .inr ⟨_, _, _, _, rfl, rfl, ⟨fun c hc => ?_, fun c hc => ?_, fun c hc => ?_, h.subs⟩, rfl⟩
      · dsimp only
        split
        · rfl
        · exact h.session c hc
      · have hne : c ≠ p.clientId := by rintro rfl; rw [hA] at hc; cases hc
        simp only [if_neg hne]
        exact h.left c hc
      · have hne : c ≠ p.clientId := by rintro rfl; rw [hA] at hc; cases hc
        simp only [if_neg hne]
        exact h.right c hc
    | refused => exact .inr ⟨_, _, _, _, rfl, rfl, h, rfl⟩
    | incomplete => exact .inl ⟨rfl, rfl⟩
  | controlPacket id p tx =>
    refine .inr ⟨_, _, _, _, rfl, rfl, ?_⟩
    cases p with
    | publish q =>
      refine ⟨h, ?_⟩
      simp only [Spec.Broker.packet, h.copiesTo]
    | subscribe s =>
      have hA : A id = false := by
        rcases hA with hA | hA
        · exact hA
        · cases hA
      refine ⟨⟨h.session, h.left, h.right, ?_⟩, rfl⟩
      simp only [Spec.Broker.packet, List.filter_append, h.subs]
    | unsubscribe u =>
      have hA : A id = false := by
        rcases hA with hA | hA
        · exact hA
        · cases hA
      refine ⟨⟨h.session, h.left, h.right, ?_⟩, rfl⟩
      simp only [Spec.Broker.packet]
      rw [Entries.filter_unsubscribe_own A _ hA, Entries.filter_unsubscribe_own A _ hA, h.subs]
    | pingReq =>
      have hA : A id = false := by
        rcases hA with hA | hA
        · exact hA
        · cases hA
      refine ⟨h, ?_⟩
      simp only [Spec.Broker.packet, h.session id hA]
    | disconnect =>
      have hA : A id = false := by
        rcases hA with hA | hA
        · exact hA
        · cases hA
      exact ⟨hforget (.disconnected id) (.inl rfl) hA, rfl⟩
    | _ => exact ⟨h, rfl⟩
  | disconnected id => exact .inr ⟨_, _, _, _, rfl, rfl, h, rfl⟩
  | connectionLost id =>
    have hA : A id = false := by
      rcases hA with hA | hA
      · exact hA
      · cases hA
    exact .inr ⟨_, _, _, _, rfl, rfl, hforget (.connectionLost id) (.inr rfl) hA, rfl⟩

/-- What is sent to `d` is a beginning of what it is sent without the group; all of it, if no event of the group crashes the broker. -/
theorem outputs (h : AgreeBut A d b b') (auth : IdentityProvider) (evs : List ClientEvent)
    (hd : ∀ ev ∈ evs, A (clientOf ev) = true → ¬ From d ev) :
    b.outputs auth evs d <+: b'.outputs auth (withoutGroup A evs) d
    ∧ ((∀ p addr tx, .connected p addr tx ∈ evs → A p.clientId = true → login auth p ≠ .incomplete) →
        b.outputs auth evs d = b'.outputs auth (withoutGroup A evs) d) := by
  induction evs generalizing b b' with
  | nil => exact ⟨List.nil_prefix, fun _ => rfl⟩
  | cons ev evs ih =>
    by_cases hk : A (clientOf ev) = true ∧ isPublish ev = false
    · have hw : withoutGroup A (ev :: evs) = withoutGroup A evs := by
        unfold withoutGroup
        rw [List.filter_cons, if_neg (by simp [hk.1, hk.2])]
      rw [hw]
      simp only [Spec.Broker.outputs]
      cases hs : b.step auth ev with
      | none =>
        refine ⟨List.nil_prefix, fun hc => ?_⟩
        cases ev with
        | connected p addr tx =>
          have := hc p addr tx List.mem_cons_self hk.1
          simp only [Spec.Broker.step] at hs
          split at hs
          · cases hs
          · cases hs
          · rename_i hl; exact absurd hl this
        | controlPacket id p tx => simp [Spec.Broker.step] at hs
        | disconnected id => cases hs
        | connectionLost id => cases hs
      | some r =>
        obtain ⟨b₁, out⟩ := r
        obtain ⟨h1, h2⟩ := h.step_group hk.1 hk.2 (hd ev List.mem_cons_self hk.1) hs
        simp only [h2, List.nil_append]
        obtain ⟨h3, h4⟩ := ih h1 fun ev he => hd ev (List.mem_cons_of_mem _ he)
        exact ⟨h3, fun hc => h4 fun p addr tx hm => hc p addr tx (List.mem_cons_of_mem _ hm)⟩
    · have hk' : A (clientOf ev) = false ∨ isPublish ev = true := by
        cases hA : A (clientOf ev) with
        | false => exact .inl rfl
        | true =>
          cases hP : isPublish ev with
          | false => exact absurd ⟨hA, hP⟩ hk
          | true => exact .inr rfl
      have hw : withoutGroup A (ev :: evs) = ev :: withoutGroup A evs := by
        unfold withoutGroup
        rw [List.filter_cons, if_pos (by rcases hk' with h | h <;> simp [h])]
      rw [hw]
      simp only [Spec.Broker.outputs]
      rcases h.step_other (auth := auth) hk' with ⟨h1, h2⟩ | ⟨b₁, b₁', out, out', h1, h2, h3, h4⟩
      · rw [h1, h2]
        exact ⟨List.prefix_refl _, fun _ => rfl⟩
      · rw [h1, h2]
        obtain ⟨h5, h6⟩ := ih h3 fun ev he => hd ev (List.mem_cons_of_mem _ he)
        dsimp only
        rw [h4]
        refine ⟨List.prefix_append_right_inj _ |>.mpr h5, fun hc => ?_⟩
        rw [h6 fun p addr tx hm => hc p addr tx (List.mem_cons_of_mem _ hm)]

end AgreeBut

end Ratel
