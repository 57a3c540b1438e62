import Verif.Model.Signature
import Verif.Spec.SigPackets
/-
Specification vocabulary for signature objects.
-/
namespace Pgp.Spec

/-- Every subpacket of a known type code is an object of the class for that code (what reading a signature always gives). -/
def RegularSubs (l : List Sub) : Prop := ∀ x ∈ l, ∀ c t, x = .plain c (.other t) → t ∉ knownTypes

def Regular (s : SigObj) : Prop := RegularSubs s.hashed ∧ RegularSubs s.unhashed

/-- One assignment `signature.f = v`. -/
abbrev Assign := (f : Field) × f.Val

/-- A sequence of assignments, in order. -/
def assignAll (s : SigObj) : List Assign → Py SigObj
  | [] => .ok s
  | a :: l => do
    let s' ← s.set a.1 a.2
    assignAll s' l

/-- The value last assigned to a property, if any. -/
def lastValue (g : Field) : List Assign → Option g.Val
  | [] => none
  | a :: l =>
    match lastValue g l with
    | some v => some v
    | none => if h : a.1 = g then some (h ▸ a.2) else none

/-- Two properties that can be told apart by the implementation: not the pair `exportable`, `revocable`. -/
def Separate (f g : Field) : Prop := ¬(f = .exportable ∧ g = .revocable) ∧ ¬(f = .revocable ∧ g = .exportable)

/-- The signature has a key flags subpacket. -/
def HasFlags (s : SigObj) : Prop := ∃ x ∈ s.hashed ++ s.unhashed, x.type = 27

/-- Both are key flags. -/
def BothFlags (f g : Field) : Prop := (∃ x, f = .flag x) ∧ (∃ y, g = .flag y)

end Pgp.Spec
