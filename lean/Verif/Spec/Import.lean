import Verif.Model.Import
import Verif.Spec.KeyFile
import Verif.Spec.Hex
/-
Specification for C120: keys in a keyring file.
-/
namespace Pgp.Spec

/-- The octets of a key, public or secret. -/
def AnyKeyFile (magic : List UInt8 → List Char) (F : HeaderFormat → Prop) (good : Nat → Prop) (b : List UInt8) : Prop :=
  PublicKeyFile magic F good b ∨ SecretKeyFile magic F good b

/-- `fp` is the fingerprint of the key in the octets `b` (RFC 4880, 12.2): these begin with a packet of type 6 or 5, whose content begins with the public values `pub`. -/
def FileFingerprint (sha1 : List UInt8 → List UInt8) (good : Nat → Prop) (b : List UInt8) (fp : List Char) : Prop :=
  ∃ f t hd pub tail rest, (t = 6 ∨ t = 5) ∧ HeaderOf f t (pub ++ tail).length hd ∧ KeyWire good pub ∧ b = hd ++ (pub ++ tail) ++ rest ∧
    fp = hexText (sha1 ([0x99] ++ beBytes 2 pub.length ++ pub))

/-- The last eight digits, by which keyrings tell keys apart. -/
def lastEight (fp : List Char) : List Char := fp.drop (fp.length - 8)

/-- The header format of the first packet (bit 6 of the first octet; RFC 4880, 4.2). -/
def formatOf : List UInt8 → Option HeaderFormat
  | [] => none
  | x :: _ => some (if x.toNat / 64 % 2 = 1 then .new else .old)

/-- The octets `b` and `b'` are the same packets (types and contents), with the shortest definite lengths; in `b'` all headers have the format `f`. -/
inductive Reheaded (f : HeaderFormat) : List UInt8 → List UInt8 → Prop
  | nil : Reheaded f [] []
  | cons {g : HeaderFormat} {t : Nat} {c h h' b b' : List UInt8} (hg : HeaderOf g t c.length h) (hf : HeaderOf f t c.length h') (hb : Reheaded f b b') :
      Reheaded f (h ++ c ++ b) (h' ++ c ++ b')

/-- What is written for a key with these octets at the end of a file: the packets with headers in the format of the file; the octets themselves, if the file is empty. -/
def WrittenAs : Option HeaderFormat → List UInt8 → List UInt8 → Prop
  | none, b, b' => b' = b
  | some f, b, b' => Reheaded f b b'

/-- A keyring file as a user sees it: the keys in it, octets and fingerprints, and the format of the first packet it ever had. -/
structure FileRing where
  keys : List (List UInt8 × List Char)
  fmt : Option HeaderFormat

/-- The last key with these eight digits, between the others. -/
def LastWith (q : List Char) (keys before : List (List UInt8 × List Char)) (x : List UInt8 × List Char) (after : List (List UInt8 × List Char)) : Prop :=
  keys = before ++ x :: after ∧ lastEight x.2 = lastEight q ∧ ∀ y ∈ after, lastEight y.2 ≠ lastEight q

/-- What the operations do (not what one would like them to do): storing appends; removing cuts the file off at the last key with these digits; replacing does so and
then appends, in the format of the key that was cut off. -/
inductive FileRing.Step (magic : List UInt8 → List Char) (sha1 : List UInt8 → List UInt8) (good : Nat → Prop) (s : FileRing) : FileOp → Py Unit → FileRing → Prop
  | store {F : HeaderFormat → Prop} {d w : List UInt8} {fp : List Char} (hd : AnyKeyFile magic F good d) (hfp : FileFingerprint sha1 good d fp) (hw : WrittenAs s.fmt d w) :
      s.Step magic sha1 good (.store d) (.ok ()) ⟨s.keys ++ [(w, fp)], s.fmt.or (formatOf w)⟩
  | replace {F : HeaderFormat → Prop} {d w : List UInt8} {fp : List Char} {before after : List (List UInt8 × List Char)} {x : List UInt8 × List Char}
      (hd : AnyKeyFile magic F good d) (hfp : FileFingerprint sha1 good d fp) (hl : LastWith fp s.keys before x after) (hw : WrittenAs (formatOf x.1) d w) :
      s.Step magic sha1 good (.replace d) (.ok ()) ⟨before ++ [(w, fp)], s.fmt⟩
  | replaceMissing {F : HeaderFormat → Prop} {d : List UInt8} {fp : List Char}
      (hd : AnyKeyFile magic F good d) (hfp : FileFingerprint sha1 good d fp) (hl : ∀ x ∈ s.keys, lastEight x.2 ≠ lastEight fp) :
      s.Step magic sha1 good (.replace d) (.error .keyError) s
  | remove {q : List Char} {before after : List (List UInt8 × List Char)} {x : List UInt8 × List Char} (hl : LastWith q s.keys before x after) :
      s.Step magic sha1 good (.remove q) (.ok ()) ⟨before, s.fmt⟩
  | removeMissing {q : List Char} (hl : ∀ x ∈ s.keys, lastEight x.2 ≠ lastEight q) : s.Step magic sha1 good (.remove q) (.error .keyError) s

/-- A history of operations with the outcome of each. -/
inductive FileRing.Run (magic : List UInt8 → List Char) (sha1 : List UInt8 → List UInt8) (good : Nat → Prop) : FileRing → List FileOp → List (Py Unit) → FileRing → Prop
  | nil (s : FileRing) : FileRing.Run magic sha1 good s [] [] s
  | cons {s t u : FileRing} {op : FileOp} {ops : List FileOp} {a : Py Unit} {l : List (Py Unit)} (h : s.Step magic sha1 good op a t) (hs : FileRing.Run magic sha1 good t ops l u) :
      FileRing.Run magic sha1 good s (op :: ops) (a :: l) u

end Pgp.Spec
