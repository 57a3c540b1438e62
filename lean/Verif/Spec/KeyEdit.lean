import Verif.Model.KeyEdit
import Verif.Spec.KeySigs
/-
Specification for C94: assignments to attributes of keys.
-/
namespace Pgp.Spec

/-- One assignment `key.a = v`. -/
abbrev KeyAssign := (a : KeyAttr) × a.field.Val

/-- A sequence of assignments, in order. -/
def keyAssignAll (p : Part) : List KeyAssign → Py Part
  | [] => .ok p
  | a :: l => do
    let p' ← p.setAttr a.1 a.2
    keyAssignAll p' l

/-- The value last assigned to an attribute, if any. -/
def lastKeyValue (g : KeyAttr) : List KeyAssign → Option g.field.Val
  | [] => none
  | a :: l =>
    match lastKeyValue g l with
    | some v => some v
    | none => if h : a.1 = g then some (h ▸ a.2) else none

/-- The attributes that the library takes for one another. -/
def Confused (a b : KeyAttr) : Prop :=
  (a ∈ [.mayEncryptComms, .mayEncryptStorage, .mayAuth] ∧ b ∈ [.mayEncryptComms, .mayEncryptStorage, .mayAuth]) ∨
  (a ∈ [.mayMulti, .supportsMdc] ∧ b ∈ [.mayMulti, .supportsMdc])

/-- The attributes kept in key flags by the library. -/
def KeyFlagAttr (a : KeyAttr) : Prop :=
  a ∈ [.mayCertify, .maySign, .mayEncryptComms, .mayEncryptStorage, .mayAuth, .maySplit, .mayMulti, .supportsMdc]

/-- Index and object of the self-signature consulted: the last listed one of the types that count. -/
def Chosen (p : Part) (n : Nat) (s : SigObj) : Prop :=
  p.sigs[n]? = some s ∧ SelfSig p.selfTypes p.own s ∧ ∀ m s', n < m → p.sigs[m]? = some s' → ¬SelfSig p.selfTypes p.own s'

end Pgp.Spec
