import Verif.Spec.Modes
/-
Specification of symmetrically encrypted, integrity protected data (RFC 4880, 5.13 and 5.14), independent of the code.
-/
namespace Pgp.Spec

/-- `data` is the CFB encryption (whole-block segments, zero IV) of `plain`: CFB is a stream, so a last block that is not full is
the beginning of an encrypted full block. -/
def CfbText (E : List UInt8 → List UInt8) (bs : Nat) (plain data : List UInt8) : Prop :=
  ∃ (ps : List (List UInt8)) (pad : List UInt8), (∀ p ∈ ps, p.length = bs) ∧ ps.flatten = plain ++ pad ∧
    data = (cfbBlocks E bs (List.replicate bs 0) ps).flatten.take plain.length

/-- The random prefix: a block and its last two octets again. -/
def prefixed (iv : List UInt8) : List UInt8 := iv ++ iv.drop (iv.length - 2)

/-- RFC 4880, 5.14: the octets under the modification detection code of a message `m`: the prefix, the message and the two octets of
the header of the MDC packet. -/
def mdcInput (iv m : List UInt8) : List UInt8 := prefixed iv ++ m ++ [0xd3, 0x14]

/-- RFC 4880, 5.13: the plain text of integrity protected data: the prefix, the message and an MDC packet. -/
def protectedPlain (sha1 : List UInt8 → List UInt8) (iv m : List UInt8) : List UInt8 := mdcInput iv m ++ sha1 (mdcInput iv m)

end Pgp.Spec
