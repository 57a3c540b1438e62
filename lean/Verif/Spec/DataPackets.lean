import Verif.Model.DataPackets
import Verif.Spec.Framing
/-
Specification vocabulary for compression wrappers and data packets.
-/
namespace Pgp.Spec

/-- The stream zlib's compressor produces when fed these pieces and flushed. -/
def Zstream (Z : Zlib) (c : Z.Comp) : List Bytes → Bytes
  | [] => Z.compFlush c
  | p :: ps => (Z.compress c p).1 ++ Zstream Z (Z.compress c p).2 ps

/-- What zlib's decompressor produces when fed these pieces and flushed. -/
def Zunstream (Z : Zlib) (d : Z.Decomp) : List Bytes → Py Bytes
  | [] => .ok (Z.decompFlush d)
  | q :: qs => do
    let (o, d) ← Z.decompress d q
    let r ← Zunstream Z d qs
    return o ++ r

/-- zlib works: however the stream is cut into pieces, decompression gives back what was compressed; and the stream is
(RFC 1950) a header of two octets, deflate data and a checksum of four octets, of which the deflate data alone, after the header 78 9c, gives it too. -/
structure ZlibWorks (Z : Zlib) : Prop where
  inverse : ∀ level c, Z.newComp level = .ok c → ∀ ps qs : List Bytes, qs.flatten = Zstream Z c ps →
    Zunstream Z Z.newDecomp qs = .ok ps.flatten
  raw : ∀ level c, Z.newComp level = .ok c → ∃ d, Z.decompress Z.newDecomp [0x78, 0x9c] = .ok ([], d) ∧
    ∀ ps : List Bytes, ∃ header body check, header.length = 2 ∧ check.length = 4 ∧ Zstream Z c ps = header ++ body ++ check ∧
      ∀ qs : List Bytes, qs.flatten = body → Zunstream Z d qs = .ok ps.flatten

/-- Feeding pieces to a wrapper and flushing it: everything it returned. -/
def feedFlush {S : Type} (step : S → Bytes → Py (Bytes × S)) (flush : S → Py (Bytes × S)) (s : S) : List Bytes → Py Bytes
  | [] => do
    let (o, _) ← flush s
    return o
  | p :: ps => do
    let (o, s) ← step s p
    let r ← feedFlush step flush s ps
    return o ++ r

end Pgp.Spec
