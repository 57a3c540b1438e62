import Verif.Model.Signature
import Verif.Spec.KeyFile
import Verif.Spec.Hex
/-
Specification for C85 and C86: what the octets of a version 4 signature state.  Written from RFC 4880 sections 5.2.3, 5.2.3.1 and 5.2.3.4 to
5.2.3.26, independently of the library's reader.
-/
namespace Pgp.Spec

/-- A subpacket as it is in the octets: type (seven bits), critical bit, content. -/
structure RawSub where
  ty : Nat
  critical : Bool
  content : List UInt8

/-- Octets of a sequence of subpackets: each with a definite length in any of the three forms, the type octet and the content. -/
inductive RawSubs : List RawSub → List UInt8 → Prop
  | nil : RawSubs [] []
  | cons {r : RawSub} {rs : List RawSub} {l rest : List UInt8} (hl : NewDefinite l (r.content.length + 1)) (ht : r.ty < 128) (hs : RawSubs rs rest) :
      RawSubs (r :: rs) ((l ++ [UInt8.ofNat (r.ty + if r.critical then 128 else 0)] ++ r.content) ++ rest)

/-- Octets of a version 4 signature: type, public key and hash algorithm, hashed and unhashed subpackets, the left two octets of the hash, and integers. -/
def SigRaw (t p h : UInt8) (hashed unhashed : List RawSub) (left : List UInt8) (values : List Nat) (b : List UInt8) : Prop :=
  ∃ hd ud : List UInt8, ∃ vs : List (List UInt8), RawSubs hashed hd ∧ RawSubs unhashed ud ∧ hd.length < 65536 ∧ ud.length < 65536 ∧ left.length = 2 ∧
    List.Forall₂ LooseMpi values vs ∧ b = [4, t, p, h] ++ beBytes 2 hd.length ++ hd ++ beBytes 2 ud.length ++ ud ++ left ++ vs.flatten

/-- The contents of the subpackets of a type, in order. -/
def contents (ty : Nat) (l : List RawSub) : List (List UInt8) := (l.filter (fun r => r.ty = ty)).map (·.content)

/-- The first of them. -/
def firstContent (ty : Nat) (l : List RawSub) : Option (List UInt8) := (contents ty l).head?

/-- The subpacket type in which an attribute is stated (RFC 4880 section 5.2.3.1). -/
def attrCode : Field → Nat
  | .exportable => 4 | .revocable => 7 | .prefSym => 11 | .prefHash => 21 | .prefComp => 22 | .noModify => 23 | .prefKeyServer => 24
  | .primaryUserId => 25 | .policyUri => 26 | .flag _ => 27 | .issuerUserId => 28 | .mdc => 30

/-- The bit of a key flag (5.2.3.21). -/
def flagBit : Flag → Nat
  | .certify => 0 | .sign => 1 | .encComms => 2 | .encStorage => 3 | .split => 4 | .auth => 5 | .multi => 7

/-- The octet that stands for a boolean. -/
def boolIs (c : List UInt8) (b : Bool) : Prop := c = [0] ∧ b = false ∨ c = [1] ∧ b = true

/-- The bit `n` of the first octet. -/
def bitIs (n : Nat) (c : List UInt8) (b : Bool) : Prop := ∃ x t, c = x :: t ∧ b = x.toNat.testBit n

/-- The octets are the UTF-8 form of a text. -/
def textIs (c : List UInt8) (s : Str) : Prop := c = utf8Encode s

/-- The octets are algorithm numbers. -/
def codesAre (c : List UInt8) (l : List Nat) : Prop := l = c.map UInt8.toNat

/-- `States f c v`: the content octets `c` state the value `v` of the attribute `f`. -/
def States : (f : Field) → List UInt8 → f.Val → Prop
  | .exportable, c, v => boolIs c v
  | .revocable, c, v => boolIs c v
  | .prefSym, c, v => codesAre c v
  | .prefHash, c, v => codesAre c v
  | .prefComp, c, v => codesAre c v
  | .noModify, c, v => bitIs 7 c v
  | .prefKeyServer, c, v => c ≠ [] ∧ textIs c v
  | .primaryUserId, c, v => boolIs c v
  | .policyUri, c, v => c ≠ [] ∧ textIs c v
  | .flag x, c, v => bitIs (flagBit x) c v
  | .issuerUserId, c, v => textIs c v
  | .mdc, c, v => bitIs 0 c v

/-- The content of a human-readable notation with a name (no at-sign), an optional domain and a text. -/
def NoteStated (c : List UInt8) (name : Str) (domain : Option Str) (value : Str) : Prop :=
  ∃ n v : List UInt8, '@' ∉ name ∧ n = utf8Encode (name ++ match domain with
      | none => []
      | some d => '@' :: d) ∧
    v = utf8Encode value ∧ n.length < 65536 ∧ v.length < 65536 ∧ c = [0x80, 0, 0, 0] ++ beBytes 2 n.length ++ beBytes 2 v.length ++ n ++ v

/-- The content of a regular expression subpacket: ASCII text and a zero octet. -/
def RegexStated (c : List UInt8) (s : Str) : Prop := (∀ x ∈ s, x.toNat < 128) ∧ c = s.map (fun x => UInt8.ofNat x.toNat) ++ [0]

/-- Contents that a reader has to expect in a subpacket of a type (without additional recipient requests, revocation keys and targets). -/
inductive ContentOk : Nat → List UInt8 → Prop
  | time {ty : Nat} {c : List UInt8} (ht : ty = 2 ∨ ty = 3 ∨ ty = 9) (h : c.length = 4) : ContentOk ty c
  | bool {ty : Nat} {c : List UInt8} (ht : ty = 4 ∨ ty = 7 ∨ ty = 25) (h : c = [0] ∨ c = [1]) : ContentOk ty c
  | trust {a b : UInt8} : ContentOk 5 [a, b]
  | regex {p : List UInt8} : ContentOk 6 (p ++ [0])
  | codes {ty : Nat} {c : List UInt8} (ht : ty = 11 ∨ ty = 21 ∨ ty = 22) : ContentOk ty c
  | issuer {c : List UInt8} (h : c.length = 8) : ContentOk 16 c
  | notation {f : UInt8} {name value : List UInt8} (hf : f = 0 ∨ f = 0x80) (hn : name.length < 65536) (hv : value.length < 65536) :
      ContentOk 20 ([f, 0, 0, 0] ++ beBytes 2 name.length ++ beBytes 2 value.length ++ name ++ value)
  | text {ty : Nat} {c : List UInt8} (ht : ty = 24 ∨ ty = 26) (h : c ≠ []) : ContentOk ty c
  | bits {ty : Nat} {c : List UInt8} (ht : ty = 23 ∨ ty = 27 ∨ ty = 30) (h : c ≠ []) : ContentOk ty c
  | userId {c : List UInt8} {s : Str} (h : textIs c s) : ContentOk 28 c
  | reason {x : UInt8} {c : List UInt8} : ContentOk 29 (x :: c)
  | embedded {t p h : UInt8} {hashed unhashed : List RawSub} {left : List UInt8} {values : List Nat} {c : List UInt8}
      (hr : SigRaw t p h hashed unhashed left values c) (hs : ∀ r ∈ hashed ++ unhashed, ContentOk r.ty r.content) : ContentOk 32 c
  | unknown {ty : Nat} {c : List UInt8} (h : ty ∉ [2, 3, 4, 5, 6, 7, 9, 10, 11, 12, 16, 20, 21, 22, 23, 24, 25, 26, 27, 28, 29, 30, 31, 32]) : ContentOk ty c

end Pgp.Spec
