/-
What makes the decoder panic.
-/
import Verif.Spec.Wire

namespace Ratel.Spec

/-- A packet with this first byte and announced length, followed by these bytes, makes the decoder panic; `checks`: the build checks
for overflow.
1. The packet type is one the decoder does not implement.
2. A PUBLISH with QoS 3.
3. A PUBLISH with QoS 0 is announced shorter than its topic.
4. One with QoS 1 or 2 is announced shorter than its topic and packet id; in builds without overflow checks the packet id must be there.
5. With overflow checks: a SUBSCRIBE is announced shorter than its packet id, or so that it ends within one of its entries, which is
   complete and, as those before it, well formed.
6. The same for UNSUBSCRIBE. -/
def Panics (checks : Bool) (first : UInt8) (n : Nat) (r : List UInt8) : Prop :=
  first.toNat / 16 ∈ [0, 2, 9, 11, 13, 15]
  ∨ first.toNat / 16 = 3 ∧ first.toNat / 2 % 4 = 3
  ∨ first.toNat / 16 = 3 ∧ first.toNat / 2 % 4 = 0 ∧ (∃ t r', Fits t ∧ r = str t ++ r' ∧ n < (str t).length)
  ∨ first.toNat / 16 = 3 ∧ first.toNat / 2 % 4 ∈ [1, 2]
      ∧ (∃ t r', Fits t ∧ r = str t ++ r' ∧ n < (str t).length + 2 ∧ (checks = true ∨ 2 ≤ r'.length))
  ∨ first.toNat = 0x82 ∧ checks = true
      ∧ ((n < 2 ∧ 2 ≤ r.length)
        ∨ ∃ (i : UInt16) (fs : List (String × QoS)) (t : String) (q : UInt8) (r' : List UInt8),
          (∀ f ∈ fs, Fits f.1) ∧ Fits t ∧ q.toNat ≤ 2 ∧ r = clientRest (.subscribe i fs) ++ (str t ++ [q]) ++ r'
          ∧ (clientRest (.subscribe i fs)).length < n ∧ n < (clientRest (.subscribe i fs) ++ (str t ++ [q])).length)
  ∨ first.toNat = 0xA2 ∧ checks = true
      ∧ ((n < 2 ∧ 2 ≤ r.length)
        ∨ ∃ (i : UInt16) (fs : List String) (t : String) (r' : List UInt8),
          (∀ f ∈ fs, Fits f) ∧ Fits t ∧ r = clientRest (.unsubscribe i fs) ++ str t ++ r'
          ∧ (clientRest (.unsubscribe i fs)).length < n ∧ n < (clientRest (.unsubscribe i fs) ++ str t).length)

end Ratel.Spec

namespace Ratel.Spec

/-- The bytes begin with a text field that is not UTF-8. -/
def BadText (r : List UInt8) : Prop :=
  ∃ b r', b.length < 65536 ∧ (∀ s, utf8 s ≠ b) ∧ r = twoBytes b.length ++ b ++ r'

/-- What follows the fixed header of a CONNECT begins with fields of which the last one is a text that is not UTF-8. -/
def BadConnect (r : List UInt8) : Prop :=
  BadText r
  ∨ ∃ (name : String) (level flags : UInt8) (keepAlive : UInt16) (r₁ : List UInt8),
      Fits name ∧ r = str name ++ [level, flags] ++ twoBytes keepAlive.toNat ++ r₁
      ∧ (BadText r₁
        ∨ ∃ (id : String) (r₂ : List UInt8), Fits id ∧ r₁ = str id ++ r₂
          ∧ ((flags.toNat / 128 % 2 = 1 ∧ BadText r₂)
            ∨ flags.toNat / 64 % 2 = 1 ∧ ∃ (user : Option String) (r₃ : List UInt8), (∀ u ∈ user, Fits u)
              ∧ (user.isSome ↔ flags.toNat / 128 % 2 = 1) ∧ r₂ = optional str user ++ r₃ ∧ BadText r₃))

/-- Having read `l` bytes of a SUBSCRIBE or UNSUBSCRIBE of which `n` were announced, the decoder goes on to another entry: with overflow
checks, if it has read less than announced; without them, unless it has read exactly that (modulo 2^64). -/
def GoesOn (checks : Bool) (n l : Nat) : Prop := if checks then l < n else l % 2 ^ 64 ≠ n

/-- The decoder refuses a packet with this first byte and announced length, followed by these bytes.
1. A CONNECT with a text that is not UTF-8.
2. A PUBLISH whose topic is not UTF-8.
3. An acknowledgement, a SUBSCRIBE or UNSUBSCRIBE with wrong flags.
4. A SUBSCRIBE or UNSUBSCRIBE without entries.
5. A SUBSCRIBE with an entry that is not UTF-8 or whose QoS is more than 2, after entries that are all right.
6. An UNSUBSCRIBE with an entry that is not UTF-8. -/
def Malformed (checks : Bool) (first : UInt8) (n : Nat) (r : List UInt8) : Prop :=
  first.toNat / 16 = 1 ∧ BadConnect r
  ∨ first.toNat / 16 = 3 ∧ first.toNat / 2 % 4 ≠ 3 ∧ BadText r
  ∨ first.toNat / 16 ∈ [4, 5, 6, 7, 8, 10] ∧ first.toNat ∉ [0x40, 0x50, 0x62, 0x70, 0x82, 0xA2]
  ∨ first.toNat ∈ [0x82, 0xA2] ∧ n = 2 ∧ 2 ≤ r.length
  ∨ first.toNat = 0x82 ∧ (∃ (i : UInt16) (fs : List (String × QoS)) (r' : List UInt8), (∀ f ∈ fs, Fits f.1)
      ∧ r = clientRest (.subscribe i fs) ++ r'
      ∧ (∀ gs, gs <+: fs → GoesOn checks n (clientRest (.subscribe i gs)).length)
      ∧ (BadText r' ∨ ∃ t q r'', Fits t ∧ 2 < q.toNat ∧ r' = str t ++ q :: r''))
  ∨ first.toNat = 0xA2 ∧ ∃ (i : UInt16) (fs : List String) (r' : List UInt8), (∀ f ∈ fs, Fits f)
      ∧ r = clientRest (.unsubscribe i fs) ++ r'
      ∧ (∀ gs, gs <+: fs → GoesOn checks n (clientRest (.unsubscribe i gs)).length)
      ∧ BadText r'

end Ratel.Spec

namespace Ratel.Spec

/-- What can become of the bytes a client has sent so far. -/
inductive Fate where
  /-- They begin with this packet, and these bytes are left. -/
  | packet (p : ControlPacket) (rest : List UInt8)
  /-- They are no packet, whatever follows. -/
  | malformed
  /-- They make the decoder panic. -/
  | crash
  /-- More bytes are needed to tell. -/
  | waits

/-- The bytes have this fate. A length field of more than three bytes is malformed. -/
def HasFate (checks : Bool) (bytes : List UInt8) : Fate → Prop
  | .packet p rest => ∃ first lf n body, bytes = first :: lf ++ body ++ rest ∧ LengthField lf n ∧ lf.length ≤ 3
      ∧ WellFormed first.toNat body p ∧ (Measured p → n = body.length)
  | .malformed => (∃ first b₀ b₁ b₂ b₃ r, bytes = first :: b₀ :: b₁ :: b₂ :: b₃ :: r ∧ 128 ≤ b₀.toNat ∧ 128 ≤ b₁.toNat ∧ 128 ≤ b₂.toNat)
      ∨ ∃ first lf n r, bytes = first :: lf ++ r ∧ LengthField lf n ∧ lf.length ≤ 3 ∧ Malformed checks first n r
  | .crash => ∃ first lf n r, bytes = first :: lf ++ r ∧ LengthField lf n ∧ lf.length ≤ 3 ∧ Panics checks first n r
  | .waits => (∀ p rest, ¬ ∃ first lf n body, bytes = first :: lf ++ body ++ rest ∧ LengthField lf n ∧ lf.length ≤ 3
      ∧ WellFormed first.toNat body p ∧ (Measured p → n = body.length))
      ∧ (¬ ∃ first b₀ b₁ b₂ b₃ r, bytes = first :: b₀ :: b₁ :: b₂ :: b₃ :: r ∧ 128 ≤ b₀.toNat ∧ 128 ≤ b₁.toNat ∧ 128 ≤ b₂.toNat)
      ∧ ¬ ∃ first lf n r, bytes = first :: lf ++ r ∧ LengthField lf n ∧ lf.length ≤ 3 ∧ (Malformed checks first n r ∨ Panics checks first n r)

end Ratel.Spec
