/-
Words for clients that connect again.
-/
import Verif.Spec.Settled

namespace Ratel.Spec

/-- Connection `c` is over: the broker has dealt with all that will ever come on it. -/
def Over (env : Env) (then' : ConnId → Sys.Peer) (s : Sys) (c : ConnId) : Prop :=
  ∀ p ps, Decodes env.profile (then' c).segs.flatten (then' c).fin (.connect p :: ps) → ps.length + 1 ≤ dealtWith s c

/-- The client on connection `c` has another client id. -/
def OtherId (env : Env) (then' : ConnId → Sys.Peer) (id : ClientId) (c : ConnId) : Prop :=
  ∀ p ps, Decodes env.profile (then' c).segs.flatten (then' c).fin (.connect p :: ps) → idOf (then' c) p ≠ id

/-- The client whose CONNECT on connection `d` is `p` is served as if it had never been connected: either the broker has not dealt with
its CONNECT and has sent nothing, or it has, and what it has sent is what the machine of `Spec/View.lean`, started without subscriptions,
sends for the client's packets and the messages of others the broker has dealt with since. -/
def ServedAfresh (env : Env) (then' : ConnId → Sys.Peer) (s : Sys) (d : ConnId) (p : ConnectPacket) : Prop :=
  (dealtWith s d = 0 ∧ (s.conns d).delivered = [])
  ∨ ∃ pre post sights, s.log.map Prod.fst = pre ++ .connected { p with clientId := idOf (then' d) p } (then' d).addr d :: post
      ∧ (∀ ev ∈ pre, ¬ From d ev) ∧ sights = post.filterMap (sightOf d)
      ∧ Decodes env.profile (then' d).segs.flatten (then' d).fin (.connect p :: mineOf sights)
      ∧ (∀ q ∈ theirsOf sights, ∃ c ps, c ≠ d ∧ Decodes env.profile (then' c).segs.flatten (then' c).fin ps ∧ .publish q ∈ ps)
      ∧ (s.conns d).delivered <+: welcome :: (View.mk true []).outputs sights
      ∧ (s.handler = .idle → (s.conns d).delivered = welcome :: (View.mk true []).outputs sights)

end Ratel.Spec
