import Verif.Model.Py
/-
Specification notions for C84.
-/
namespace Pgp.Spec

/-- `r` lists the elements of the Python set made of `l`, in some order, where two objects are equal if they have the same key: of each group of equal objects
exactly one is kept. -/
def Iterates {α κ : Type} (key : α → κ) (l r : List α) : Prop :=
  (∀ x ∈ r, x ∈ l) ∧ (∀ x ∈ l, ∃ y ∈ r, key y = key x) ∧ r.Pairwise (fun x y => key x ≠ key y)

end Pgp.Spec
