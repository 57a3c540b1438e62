import Verif.Spec.KeyFile
import Verif.Spec.SecretKey
import Verif.Spec.S2k
import Verif.Spec.PacketWire
/-
Specification for C110: a secret key protected by a passphrase (RFC 4880, 3.7.1, 3.7.2.1 and 5.5.3).
-/
namespace Pgp.Spec

/-- The hash algorithm of a specifier. -/
def Specifier.hash : Specifier → Nat
  | simple h => h.toNat
  | salted h _ => h.toNat
  | iterated h _ _ => h.toNat

/-- RFC 4880, 3.7.1: the octets hashed: the passphrase; salt and passphrase; or salt and passphrase repeated up to the count, but at least once. -/
def Specifier.string (pass : List UInt8) : Specifier → List UInt8
  | simple _ => pass
  | salted _ s => s ++ pass
  | iterated _ s c => cycleTake (s ++ pass) (max (countValue c.toNat) (s ++ pass).length)

/-- The salt and the passphrase are no longer than the count. -/
def Specifier.covers (pass : List UInt8) : Specifier → Prop
  | iterated _ s c => (s ++ pass).length ≤ countValue c.toNat
  | _ => True

/-- The private integers in a key packet (RFC 4880, 5.5.3), and the numbers of the whole key as the cryptographic library wants them:
`RSA.construct((n, e, d, p, q, u))`, `DSA.construct((y, g, p, q, x))`, `ElGamal.construct((p, g, y, x))`. -/
inductive PrivateFor : KeyMaterial → List Nat → List Nat → Prop
  | rsa (n e d p q u : Nat) : PrivateFor (.rsa n e) [d, p, q, u] [n, e, d, p, q, u]
  | dsa (p q g y x : Nat) : PrivateFor (.dsa p q g y) [x] [y, g, p, q, x]
  | elgamal (p g y x : Nat) : PrivateFor (.elgamal p g y) [x] [p, g, y, x]

/-- Content of a secret key packet for algorithm `alg` with these numbers, encrypted with the cipher `sym` under `pass`, by the specifier `sp`:
a public key; usage octet 254; cipher; specifier; initial vector; and the CFB encryption of the private integers and their SHA-1. -/
def ProtectedKey (E : Nat → List UInt8 → List UInt8 → List UInt8) (hash : Nat → List UInt8 → List UInt8) (good : Nat → Prop) (pass : List UInt8)
    (alg sym : Nat) (sp : Specifier) (numbers : List Nat) (c : List UInt8) : Prop :=
  ∃ (v a s : UInt8) (t : List UInt8) (m : KeyMaterial) (priv : List Nat) (iv enc : List UInt8) (hl kl n : Nat),
    4 ≤ v.toNat ∧ t.length = 4 ∧ a.toNat = alg ∧ m.fits alg ∧ (∀ i ∈ m.ints, good i) ∧ PrivateFor m priv numbers ∧ (∀ i ∈ priv, i < 2 ^ 65535) ∧
    s.toNat = sym ∧ sp.wellFormed ∧ digestOctets sp.hash = some hl ∧ cipherKeyOctets sym = some kl ∧ kl ≤ n * hl ∧ blockOctets sym = some iv.length ∧
    CfbTextIv (E sym (derivedKey (hash sp.hash) (sp.string pass) n kl)) iv.length iv (secretPlain (hash 2) priv) enc ∧
    c = (v :: t ++ a :: (m.ints.map mpi).flatten) ++ (254 :: s :: sp.octets ++ iv ++ enc)

/-- The cases the library gets right: algorithms other than 2 (RSA, encryption only), ciphers that are `supported`, and a passphrase that is not
longer than the count allows. -/
def OpenableKey (E : Nat → List UInt8 → List UInt8 → List UInt8) (hash : Nat → List UInt8 → List UInt8) (good : Nat → Prop) (supported : Nat → Prop)
    (pass : List UInt8) (numbers : List Nat) (c : List UInt8) : Prop :=
  ∃ alg sym sp, ProtectedKey E hash good pass alg sym sp numbers c ∧ alg ≠ 2 ∧ supported sym ∧ sp.covers pass

end Pgp.Spec
