/-
C153: when changes of passwords take effect.
-/
import Verif.Model.Host
import Verif.Props.Boot
import Verif.Props.Desk

namespace Ratel

open Decoder Encoder Spec Sys

namespace Host

/-- The steps of the broker among some. -/
def brokerSteps (xs : List HStep) : List BStep :=
  xs.filterMap fun
    | .broker st => some st
    | _ => none

/-- The calls of the password tool among some. -/
def toolSteps (xs : List HStep) : List (Nat × Passwd.Outcome) :=
  xs.filterMap fun
    | .tool i o => some (i, o)
    | _ => none

variable (sv : StdVersion) (hs : Hashing) (ci : Passwd.CaseEq) (env : Env) (W : Nat) (settings : Settings)

theorem run_append (h : Host) (xs ys : List HStep) :
    run sv hs ci env W settings h (xs ++ ys) = run sv hs ci env W settings (run sv hs ci env W settings h xs) ys := List.foldl_append

/-- The tool does what it does without a broker. -/
theorem run_desk (h : Host) (xs : List HStep) : (run sv hs ci env W settings h xs).desk = h.desk.run ci (toolSteps xs) := by
  induction xs generalizing h with
  | nil => rfl
  | cons x xs ih =>
    show (run sv hs ci env W settings (step sv hs ci env W settings h x) xs).desk = _
    rw [ih]
    cases x with
    | tool i o => rfl
    | start peers =>
      show Passwd.Desk.run ci (if h.running then h else _).desk _ = Passwd.Desk.run ci h.desk (toolSteps xs)
      split <;> rfl
    | broker st => rfl

/-- A broker does what it does without the tool. -/
theorem run_broker (h : Host) (xs : List HStep) (hns : ∀ peers, .start peers ∉ xs) :
    (run sv hs ci env W settings h xs).broker = h.broker.map fun eb => (eb.1, eb.2.run eb.1 W (brokerSteps xs)) := by
  induction xs generalizing h with
  | nil =>
    show h.broker = _
    cases h.broker <;> rfl
  | cons x xs ih =>
    show (run sv hs ci env W settings (step sv hs ci env W settings h x) xs).broker = _
    rw [ih _ fun p hp => hns p (List.mem_cons_of_mem _ hp)]
    cases x with
    | tool i o => rfl
    | start peers => exact absurd List.mem_cons_self (hns peers)
    | broker st =>
      show (h.broker.map _).map _ = h.broker.map _
      rw [Option.map_map]
      rfl

end Host

/-! ### C153 -/

/-- C153, the part that holds: what the password file says when the broker is started is in force from then on: whoever is sent a CONNACK
had sent a CONNECT first, and is accepted exactly if the lines which the file had at the start admit that CONNECT; whatever the tool does
later. Missing: that changes made later take effect. -/
theorem C153_since_start_partial (sv : StdVersion) (hs : Hashing) (ci : Passwd.CaseEq) (env : Env) (W : Nat) (settings : Settings) (h : Host)
    (peers : ConnId → Peer) (hr : h.running = false) (text : List Char) (ht : h.text = some text) (ls : List (List Char)) (hf : FileLines sv text ls)
    (xs : List HStep) (hns : ∀ peers, .start peers ∉ xs) (env' : Env) (b : Boot)
    (hb : (Host.run sv hs ci env W settings h (.start peers :: xs)).broker = some (env', b)) (d : ConnId) (a : ConnAckPacket)
    (ha : .controlPacket (.connAck a) ∈ (b.proc.sys.conns d).delivered) :
    ∃ p ps, Decodes env.profile (peers d).segs.flatten (peers d).fin (.connect p :: ps)
      ∧ ((a = ⟨false, .accepted⟩ ∧ Admits hs ls p) ∨ (a = ⟨false, .notAuthorized⟩ ∧ ¬ Admits hs ls p)) := by
  have h1 : Host.run sv hs ci env W settings h (.start peers :: xs)
      = Host.run sv hs ci env W settings { h with broker := Boot.launch sv hs env peers (some settings) fun _ => h.text } xs := by
    show Host.run sv hs ci env W settings (if h.running then h else _) xs = _
    rw [hr]
    rfl
  rw [h1, Host.run_broker sv hs ci env W settings _ xs hns] at hb
  cases hl : Boot.launch sv hs env peers (some settings) fun _ => h.text with
  | none => rw [hl] at hb; cases hb
  | some eb =>
    obtain ⟨e, b₀⟩ := eb
    rw [hl] at hb
    simp only [Option.map_some, Option.some.injEq, Prod.mk.injEq] at hb
    obtain ⟨rfl, rfl⟩ := hb
    exact C118_access sv hs env e peers settings (fun _ => h.text) text ls b₀ W hl ht hf (Host.brokerSteps xs) d a ha

/-- C153 is violated: for every password file, every user in it and every password that fits, let the broker be started, and then the
user be deleted with the tool. Though the tool has ended well and the file no longer has the user, the broker still accepts the user's
CONNECT. -/
theorem C153_deleted_fails (sv : StdVersion) (hs : Hashing) (ci : Passwd.CaseEq) (hci : CaseOk ci) (es : List Entry) (h : Ratel.WellFormed es)
    (user hash : List Char) (hmem : ⟨user, hash⟩ ∈ es) (hne : NoneEndsLike ci user es) (password : String)
    (parsed : hs.Hash) (hp : hs.parse (String.ofList hash) = some parsed) (hv : hs.verify (strBytes password) parsed = true)
    (env : Env) (W : Nat) (hW : 0 < W) (settings : Settings) (hadd : settings.listenersTcp ≠ [])
    (peers : ConnId → Peer) (hshort : ∀ c, (peers c).segs.flatten.length < 4096)
    (c : Connect) (hu : c.userName = some (String.ofList user)) (hpw : c.password = some password) (hsolo : Solo peers [.connect c]) :
    ∃ (os : List Passwd.Outcome) (bs : List BStep) (w : Host) (env' : Env) (b : Boot),
      w = Host.run sv hs ci env W settings ⟨Passwd.Desk.start (some (bytesOf (fileOf es))) (oneTask user .delete), none⟩
        (.start peers :: os.map (.tool 0))
      ∧ (∀ o ∈ os, o ≠ .fails) ∧ (w.desk.jobs 0).stage = .finished
      ∧ w.text = some (fileOf (es.filter fun e => e.user ≠ user))
      ∧ (∃ b₀, w.broker = some (env', b₀) ∧ b₀.proc.accepted = [])
      ∧ (Host.run sv hs ci env W settings w (bs.map .broker)).broker = some (env', b)
      ∧ (b.proc.sys.conns 0).delivered = [.controlPacket (.connAck ⟨false, .accepted⟩)] := by
  obtain ⟨f, hf, hl⟩ := loads_fileOf sv h
  have hauth : f.authenticate hs (String.ofList user) password = .ok () := by
    have := (hl user hash).mpr hmem
    simp [FileIdentityManager.authenticate, this, hp, hv]
  have hlaunch : Boot.launch sv hs env peers (some settings) (fun _ => some (fileOf es))
      = some ({ env with auth := f.authenticate hs }, ⟨Proc.start 0 peers, settings.listenersTcp, false⟩) := by
    simp only [Boot.launch, hf]
  have hstart : Host.step sv hs ci env W settings ⟨Passwd.Desk.start (some (bytesOf (fileOf es))) (oneTask user .delete), none⟩ (.start peers)
      = ⟨Passwd.Desk.start (some (bytesOf (fileOf es))) (oneTask user .delete),
          some ({ env with auth := f.authenticate hs }, ⟨Proc.start 0 peers, settings.listenersTcp, false⟩)⟩ := by
    have ht : Host.text ⟨Passwd.Desk.start (some (bytesOf (fileOf es))) (oneTask user .delete), none⟩ = some (fileOf es) := by
      simp [Host.text, Passwd.Desk.start, Passwd.fromUtf8_bytesOf]
    simp only [Host.step, Host.running, ht, hlaunch]
    rfl
  obtain ⟨os, h1, h2, h3⟩ := Passwd.Desk.completes ci (d := Passwd.Desk.start (some (bytesOf (fileOf es))) (oneTask user .delete)) (i := 0)
    (t := fileOf es) rfl rfl
  have hok := h.ok _ hmem
  have hdel := (C61_delete_works_partial sv ci hci es h user hok.userColon hok.userNl hne).1
  have hout : ∀ d, Broker.start.outputs (f.authenticate hs) (eventsOf (peers 0) 0 ([.connect c].map meaning)) d
      = if d = 0 then [.controlPacket (.connAck ⟨false, .accepted⟩)] else [] := by
    intro d
    simp [meaning, eventsOf, Broker.outputs, Broker.step, login, hu, hpw, hauth, Spec.to]
  obtain ⟨sched, _, _, h4⟩ := solo_login { env with auth := f.authenticate hs } hsolo (fun c' hc' _ => by
    simp at hc'; rw [hc', hpw]; rfl) (fun d => by rw [hout]; split <;> simp)
  obtain ⟨ps, hps⟩ := C82_process_realizes { env with auth := f.authenticate hs } W settings.listenersTcp.length peers hW
    (List.length_pos_iff.mpr hadd) sched fun _ _ c _ => not_spinning (hshort c)
  obtain ⟨bs, g1, g2⟩ := (C117_boot_is_process { env with auth := f.authenticate hs } W peers settings.listenersTcp).2.2 ps
  have htool : Host.toolSteps (os.map (.tool 0)) = os.map (0, ·) := by
    clear h1 h2 h3
    induction os with
    | nil => rfl
    | cons o os ih => exact congrArg ((0, o) :: ·) ih
  have hbrk : Host.brokerSteps (os.map (.tool 0)) = [] := by
    clear h1 h2 h3 htool
    induction os with
    | nil => rfl
    | cons o os ih => exact ih
  have hbs : Host.brokerSteps (bs.map .broker) = bs := by
    clear g1 g2
    induction bs with
    | nil => rfl
    | cons x bs ih => exact congrArg (x :: ·) ih
  generalize hw : Host.run sv hs ci env W settings ⟨Passwd.Desk.start (some (bytesOf (fileOf es))) (oneTask user .delete), none⟩
        (.start peers :: os.map (.tool 0)) = w
  have hw' : Host.run sv hs ci env W settings (Host.step sv hs ci env W settings
      ⟨Passwd.Desk.start (some (bytesOf (fileOf es))) (oneTask user .delete), none⟩ (.start peers)) (os.map (.tool 0)) = w := hw
  rw [hstart] at hw'
  have hdesk := Host.run_desk sv hs ci env W settings ⟨Passwd.Desk.start (some (bytesOf (fileOf es))) (oneTask user .delete),
          some ({ env with auth := f.authenticate hs }, ⟨Proc.start 0 peers, settings.listenersTcp, false⟩)⟩ (os.map (.tool 0))
  have hbroker := Host.run_broker sv hs ci env W settings ⟨Passwd.Desk.start (some (bytesOf (fileOf es))) (oneTask user .delete),
          some ({ env with auth := f.authenticate hs }, ⟨Proc.start 0 peers, settings.listenersTcp, false⟩)⟩ (os.map (.tool 0)) (by simp)
  rw [hw', htool] at hdesk
  rw [hw', hbrk] at hbroker
  refine ⟨os, bs, w, { env with auth := f.authenticate hs },
    Boot.run { env with auth := f.authenticate hs } W ⟨Proc.start 0 peers, settings.listenersTcp, false⟩ bs, hw.symm, h1, ?_, ?_, ⟨_, hbroker, rfl⟩, ?_, ?_⟩
  · rw [hdesk]; exact h3
  · have : w.desk.file = some (bytesOf (Passwd.run ci user .delete (fileOf es))) := by rw [hdesk]; exact h2
    rw [hdel] at this
    simp [Host.text, this, Passwd.fromUtf8_bytesOf]
  · rw [Host.run_broker sv hs ci env W settings _ _ (by simp), hbroker, hbs]
    rfl
  · rw [g2, hps, h4, hout, if_pos rfl]

/-! ### The hypotheses can be met -/

-- Ann is deleted while the broker runs, and gets in
example (sv : StdVersion) : ∃ (os : List Passwd.Outcome) (bs : List BStep) (w : Host) (env' : Env) (b : Boot),
      w = Host.run sv plainHashing asciiCase exampleEnv 4 twoPorts
        ⟨Passwd.Desk.start (some (bytesOf (fileOf [⟨"ann".toList, "1".toList⟩]))) (oneTask "ann".toList .delete), none⟩
        (.start (soloPeers [.connect (annConnects "1")]) :: os.map (.tool 0))
      ∧ (w.desk.jobs 0).stage = .finished ∧ w.text = some []
      ∧ (Host.run sv plainHashing asciiCase exampleEnv 4 twoPorts w (bs.map .broker)).broker = some (env', b)
      ∧ (b.proc.sys.conns 0).delivered = [.controlPacket (.connAck ⟨false, .accepted⟩)] := by
  obtain ⟨os, bs, w, env', b, h1, _, h2, h3, _, h4, h5⟩ := C153_deleted_fails sv plainHashing asciiCase asciiCase_ok [⟨"ann".toList, "1".toList⟩]
    ⟨fun e he => by
      rw [List.mem_singleton] at he
      subst he
      exact ⟨by decide +kernel, by decide +kernel, by decide +kernel, by decide +kernel, fun x hx => by
        have := congrArg List.getLast? hx
        simp at this⟩, by simp⟩ "ann".toList "1".toList List.mem_cons_self
    (fun e he hne => by rw [List.mem_singleton] at he; subst he; exact absurd rfl hne) "1" (String.ofList "1".toList) rfl (by decide +kernel)
    exampleEnv 4 (by decide) twoPorts (by simp [twoPorts]) (soloPeers [.connect (annConnects "1")])
    (fun c => by
      have := annConnects_solo.short
      by_cases hc : c = 0
      · simp [soloPeers, hc, this]
      · simp [soloPeers, hc]) (annConnects "1") (by decide +kernel) rfl annConnects_solo
  exact ⟨os, bs, w, env', b, h1, h2, by rw [h3]; decide +kernel, h4, h5⟩

-- started anew, the broker goes by the new file
example (sv : StdVersion) (d : Passwd.Desk) (hd : d.file = some (bytesOf [])) (xs : List HStep) (hns : ∀ peers, .start peers ∉ xs) (env' : Env) (b : Boot)
    (hb : (Host.run sv plainHashing asciiCase exampleEnv 4 twoPorts ⟨d, none⟩ (.start (soloPeers [.connect (annConnects "1")]) :: xs)).broker = some (env', b))
    (a : ConnAckPacket) (ha : .controlPacket (.connAck a) ∈ (b.proc.sys.conns 0).delivered) :
    ∃ p ps, Decodes exampleEnv.profile (soloPeers [.connect (annConnects "1")] 0).segs.flatten (soloPeers [.connect (annConnects "1")] 0).fin (.connect p :: ps)
      ∧ ((a = ⟨false, .accepted⟩ ∧ Admits plainHashing [] p) ∨ (a = ⟨false, .notAuthorized⟩ ∧ ¬ Admits plainHashing [] p)) :=
  C153_since_start_partial sv plainHashing asciiCase exampleEnv 4 twoPorts ⟨d, none⟩ _ rfl [] (by simp [Host.text, hd, Passwd.fromUtf8_bytesOf]) [] .empty
    xs hns env' b hb 0 a ha

end Ratel
