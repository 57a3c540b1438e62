/-
Specification of RFC 4880 section 3.7.1.
-/
namespace Pgp.Spec

/-- `unit` repeated for ever and cut to `n` octets. -/
def cycleTake (unit : List UInt8) (n : Nat) : List UInt8 :=
  (List.range n).map fun i => unit.getD (i % unit.length) 0

/-- The key: hashes of the string preloaded with 0, 1, 2, ... zero octets, concatenated (`n` of them) and cut. -/
def derivedKey (hash : List UInt8 → List UInt8) (string : List UInt8) (n keyLen : Nat) : List UInt8 :=
  ((List.range n).flatMap fun i => hash (List.replicate i 0 ++ string)).take keyLen

/-- The 256 iteration counts of section 3.7.1.3: `(16 + (c & 15)) << ((c >> 4) + 6)`. -/
def countValue (c : Nat) : Nat := (16 + c % 16) * 2 ^ (c / 16 + 6)

/-- Octets in a digest, by hash algorithm code (RFC 4880 section 9.4): MD5, SHA-1, RIPE-MD/160, SHA-256, SHA-384, SHA-512, SHA-224. -/
def digestOctets (alg : Nat) : Option Nat :=
  [(1, 16), (2, 20), (3, 20), (8, 32), (9, 48), (10, 64), (11, 28)].lookup alg

/-- Octets in a key, by symmetric algorithm code (RFC 4880 section 9.2, RFC 5581 section 3): plaintext, IDEA, TripleDES, CAST5,
Blowfish, AES-128, AES-192, AES-256, Twofish with a 256-bit key, Camellia-128, Camellia-192, Camellia-256. -/
def cipherKeyOctets (alg : Nat) : Option Nat :=
  [(0, 0), (1, 16), (2, 24), (3, 16), (4, 16), (7, 16), (8, 24), (9, 32), (10, 32), (11, 16), (12, 24), (13, 32)].lookup alg

/-- The same with the 16 octets the package's table gives Twofish (see `C20_twofish_refuted`). -/
def tableKeyOctets (alg : Nat) : Option Nat := if alg = 10 then some 16 else cipherKeyOctets alg

/-- Octets in a cipher block, by symmetric algorithm code (section 9.2, section 13.9 and RFC 5581). -/
def blockOctets (alg : Nat) : Option Nat :=
  [(0, 0), (1, 8), (2, 8), (3, 8), (4, 8), (7, 16), (8, 16), (9, 16), (10, 16), (11, 16), (12, 16), (13, 16)].lookup alg

end Pgp.Spec
