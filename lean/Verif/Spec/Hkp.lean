import Verif.Model.Hkp
import Verif.Spec.Armor
import Verif.Spec.Hex
/-
Specification of machine-readable keyserver listings (draft-shaw-openpgp-hkp-00, section 5.2), independent of the reader.
-/
namespace Pgp.Spec

/-- A user id in a listing. -/
structure UidEntry where
  text : List Char
  created : Nat
  expires : Option Nat
  flags : List Char

/-- A key in a listing. -/
structure KeyEntry where
  keyId : List Char
  algorithm : Nat
  bits : Nat
  created : Nat
  expires : Option Nat
  flags : List Char
  uids : List UidEntry

/-- Percent-encoding: characters outside ASCII that are `raw` are left alone; of the UTF-8 form of the other characters, octets that
are `safe` stand for themselves and others become %XX. -/
def pctEncode (safe : UInt8 → Bool) (raw : Char → Bool) (s : List Char) : List Char :=
  s.flatMap fun c =>
    if raw c && 128 ≤ c.toNat then [c]
    else (utf8Encode [c]).flatMap fun b =>
      if safe b && b.toNat < 128 && b ≠ 0x25 then [Char.ofNat b.toNat]
      else ['%', hexDigit (b.toNat / 16), hexDigit (b.toNat % 16)]

/-- An optional number: empty if absent. -/
def optDecimal : Option Nat → List Char
  | none => []
  | some n => decimal n

/-- Fields joined with colons, where empty fields at the end may be left off (with their colons). -/
def LineOf (fields : List (List Char)) (line : List Char) : Prop :=
  ∃ kept k, kept ≠ [] ∧ fields = kept ++ List.replicate k [] ∧ line = pyJoin [':'] kept

/-- A field that can be written: no colon, no line break. -/
def FieldOk (s : List Char) : Prop := ':' ∉ s ∧ OneLine s

/-- The line of a user id. -/
def UidLine (u : UidEntry) (line : List Char) : Prop :=
  ∃ safe raw, FieldOk (pctEncode safe raw u.text) ∧ FieldOk u.flags ∧
    LineOf ["uid".toList, pctEncode safe raw u.text, decimal u.created, optDecimal u.expires, u.flags] line

/-- The line of a key. -/
def PubLine (e : KeyEntry) (line : List Char) : Prop :=
  FieldOk e.keyId ∧ FieldOk e.flags ∧
    LineOf ["pub".toList, e.keyId, decimal e.algorithm, decimal e.bits, decimal e.created, optDecimal e.expires, e.flags] line

/-- A line that is neither a key nor a user id. -/
def OtherLine (line : List Char) : Prop :=
  OneLine line ∧ ¬ "pub".toList <+: line ∧ ¬ "uid".toList <+: line

/-- The lines of a key's user ids, in order, with other lines between them. -/
inductive UidLines : List UidEntry → List (List Char) → Prop
  | nil : UidLines [] []
  | other {us ls l} : OtherLine l → UidLines us ls → UidLines us (l :: ls)
  | uid {u us l ls} : UidLine u l → UidLines us ls → UidLines (u :: us) (l :: ls)

/-- The lines of keys, each followed by its user ids. -/
inductive KeyLines : List KeyEntry → List (List Char) → Prop
  | nil : KeyLines [] []
  | key {e es l us ls} : PubLine e l → UidLines e.uids us → KeyLines es ls → KeyLines (e :: es) (l :: us ++ ls)

/-- The first line of a listing: the information line `info:<version>:<count>`, or any other line that is not one. -/
def FirstLine (line : List Char) : Prop :=
  (∃ v c, FieldOk v ∧ FieldOk c ∧ line = "info:".toList ++ v ++ ':' :: c) ∨ (OtherLine line ∧ ¬ "info:".toList <+: line)

/-- The times that occur in an entry. -/
def UidEntry.times (u : UidEntry) : List Nat := u.created :: u.expires.toList

def KeyEntry.times (e : KeyEntry) : List Nat := e.created :: e.expires.toList ++ e.uids.flatMap UidEntry.times

/-- The result the user should see. -/
def UidEntry.result {T : Type} (ts : Nat → T) (u : UidEntry) : HkpUid T :=
  ⟨u.text, ts u.created, u.expires.map ts, 'r' ∈ u.flags, 'd' ∈ u.flags, 'e' ∈ u.flags⟩

def KeyEntry.result {T : Type} (ts : Nat → T) (e : KeyEntry) : HkpResult T :=
  ⟨e.keyId, e.algorithm, e.bits, ts e.created, e.expires.map ts, 'r' ∈ e.flags, 'd' ∈ e.flags, 'e' ∈ e.flags, e.uids.map (·.result ts)⟩

end Pgp.Spec
