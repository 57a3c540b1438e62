import Verif.Model.Crash
import Verif.Spec.Keyring
/-
Specification vocabulary for crashes while a keyring file is written (C63) and for keyring files in use by several objects (C114).
-/
namespace Pgp.Spec

/-- The process makes these calls on a file with the content `f`, and dies: the content found afterwards may be that before any of the calls or after
all of them, and a write may have been done in part. -/
inductive FoundAfter : List UInt8 → List FileCall → List UInt8 → Prop
  | here {f : List UInt8} {cs : List FileCall} : FoundAfter f cs f
  | torn {f d : List UInt8} {cs : List FileCall} (n : Nat) : FoundAfter f (.write d :: cs) (f ++ d.take n)
  | later {f g : List UInt8} {c : FileCall} {cs : List FileCall} : FoundAfter (c.run f) cs g → FoundAfter f (c :: cs) g

/-- The calls made by an operation. -/
def ringCalls (I : PacketInfo) (r : Keyring) : RingOp → List FileCall
  | .add k => writeCalls (r.addData k.toNew)
  | .delete fp => writeCalls (r.deleteData I fp)
  | .update k => writeCalls (r.updateData I k.toNew)

/-- Objects add keys one after the other: what each addition gives, and the state at the end (`none` if an object does not exist). -/
def sharedAdds (I : PacketInfo) (s : SharedRing) : List (Nat × SpecKey) → Option (List (Py Unit) × SharedRing)
  | [] => some ([], s)
  | (i, k) :: ops =>
    match s.step i (fun r => r.add I k.toNew) with
    | none => none
    | some (o, s') =>
      match sharedAdds I s' ops with
      | none => none
      | some (os, s'') => some (o :: os, s'')

/-- The number of additions up to the last one by the object `i`. -/
def lastBy (i : Nat) : List (Nat × SpecKey) → Nat
  | [] => 0
  | op :: ops => if lastBy i ops ≠ 0 then lastBy i ops + 1 else if op.1 = i then 1 else 0

end Pgp.Spec
