/-
Connections on which no packet comes.
-/
import Verif.Spec.Files
import Verif.Spec.Lasting

namespace Ratel.Spec

/-- What comes on the connection, fewer than 4096 bytes and perhaps none, is the beginning of a packet at most; then nothing comes any more, and
the connection stays open. -/
structure Mute (pr : Profile) (peer : Sys.Peer) : Prop where
  short : peer.segs.flatten.length < 4096
  open_ : peer.fin = .silence
  begins : (decoded pr peer.segs.flatten .silence).1 = .pending

/-- Reading the first packet of the connection, through its buffer of 4096 bytes, does not come to an end: it waits for more bytes for ever, or
goes round a loop for ever. -/
def Unfinished (env : Env) (peer : Sys.Peer) : Prop :=
  (received env.alloc env.profile 4096 peer.segs peer.fin 1).1 = .pending
  ∨ (received env.alloc env.profile 4096 peer.segs peer.fin 1).1 = .hang

end Ratel.Spec
