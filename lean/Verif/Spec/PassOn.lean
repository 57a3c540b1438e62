import Verif.Spec.Settle
import Verif.Model.Message
/-
Specification for C123: which messages, once read, can be passed on.
-/
namespace Pgp.Spec

/-- A string-to-key specifier of RFC 4880 with its whole salt (the last octets of a packet that was cut short may be missing). -/
def WholeSpecifier : S2K → Prop
  | .simple _ _ => True
  | .salted _ _ salt => salt.length = 8
  | .iterated _ _ salt _ => salt.length = 8
  | .gnupg _ _ _ _ _ => False

/-- The exceptions: file names that are not ASCII (the number of characters is written as the number of octets), incomplete and GnuPG's own specifiers, and
signatures that cannot be stored, and signed messages that came without their signatures. -/
inductive Passable (fl : Nat → Nat) (good : Nat → Prop) : Msg → Prop
  | literal {text : Bool} {data : LitData} {name : Str} {t : Nat} (hn : ∀ c ∈ name, c.toNat < 128) : Passable fl good (.literal text data name t)
  | compressed {alg : Nat} {data : Bytes} : Passable fl good (.compressed alg data)
  | encrypted {keys : List SessKey} {integrity : Bool} {version : Option Nat} {data : Option Bytes}
      (hk : ∀ alg s2k esk, SessKey.sym alg s2k esk ∈ keys → WholeSpecifier s2k) : Passable fl good (.encrypted keys integrity version data)
  | signed {sigs : List (HeaderFormat × Sig)} {m : Msg} {onePass : Bool} (hne : sigs ≠ []) (hs : ∀ s ∈ sigs, SigStorable fl good s.2) (hm : Passable fl good m) :
      Passable fl good (.signed sigs (some m) onePass)

/-- The same message: the same in everything but the signatures, and the signatures are the same in their octets, in number and in order. -/
def SameMessage (fl : Nat → Nat) : Msg → Msg → Prop
  | .signed sigs m onePass, .signed sigs' m' onePass' => m' = m ∧ onePass' = onePass ∧
      List.Forall₂ (fun s s' => s'.1 = s.1 ∧ Sig.content fl s'.2 = Sig.content fl s.2) sigs sigs'
  | m, m' => m' = m

end Pgp.Spec
