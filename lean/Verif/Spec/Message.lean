import Verif.Model.Message
import Mathlib.Data.List.Forall2
/-
Specification: which packet sequences are which messages, and what opening an encrypted message means.
-/
namespace Pgp.Spec

/-- The packet is a one-pass signature packet. -/
def IsOps (p : MPacket) : Prop := ∃ o, p.body = .onePass o

/-- The session key a session key packet carries. -/
inductive KeyOf : MPacket → SessKey → Prop
  | pub (f : HeaderFormat) (p : PkEsk) : KeyOf ⟨f, .pkesk p⟩ (.pub f p)
  | sym (f : HeaderFormat) (p : SkEsk) : KeyOf ⟨f, .skesk p⟩ (.sym p.sym p.s2k p.esk)

/-- Signature packets with these signatures in this order, one-pass signature packets anywhere between them. -/
inductive SigTail : List MPacket → List (HeaderFormat × Sig) → Prop
  | nil : SigTail [] []
  | ops {p : MPacket} {ps : List MPacket} {ss : List (HeaderFormat × Sig)} (hp : IsOps p) (h : SigTail ps ss) : SigTail (p :: ps) ss
  | sig {f : HeaderFormat} {s : Sig} {ps : List MPacket} {ss : List (HeaderFormat × Sig)} (h : SigTail ps ss) :
      SigTail (⟨f, .sig s⟩ :: ps) ((f, s) :: ss)

/-- The messages the library recognises. A literal or compressed data packet is a message, whatever follows it. Session key packets
followed by an integrity protected data packet are an encrypted message, whatever follows; with no session key packet the key is the
default one. A sequence that starts with a one-pass signature packet is a signed message if, one-pass packets left out, there is
nothing or one single-packet message followed by signatures only. -/
inductive MessageOf : List MPacket → Msg → Prop
  | literal (f : HeaderFormat) (l : Literal) (t : Nat) (rest : List MPacket) (ht : l.time = .int t) :
      MessageOf (⟨f, .literal l⟩ :: rest) (.literal (l.dataFormat = 0x75 ∨ l.dataFormat = 0x74) l.data l.filename t)
  | compressed (f : HeaderFormat) (c : Compressed) (rest : List MPacket) :
      MessageOf (⟨f, .compressed c⟩ :: rest) (.compressed c.algorithm c.data)
  | encrypted (esks : List MPacket) (keys : List SessKey) (f : HeaderFormat) (p : Seipd) (rest : List MPacket)
      (hk : List.Forall₂ KeyOf esks keys) (hne : keys ≠ []) :
      MessageOf (esks ++ ⟨f, .seipd p⟩ :: rest) (.encrypted keys true (some p.version) (some p.data))
  | encryptedDefault (f : HeaderFormat) (p : Seipd) (rest : List MPacket) :
      MessageOf (⟨f, .seipd p⟩ :: rest) (.encrypted [.default] true (some p.version) (some p.data))
  | signedNothing (ps : List MPacket) (hne : ps ≠ []) (h : ∀ p ∈ ps, IsOps p) : MessageOf ps (.signed [] none true)
  | signed (pre post : List MPacket) (p : MPacket) (m : Msg) (sigs : List (HeaderFormat × Sig)) (hne : pre ≠ [])
      (hpre : ∀ p ∈ pre, IsOps p) (hp : ¬ IsOps p) (hm : MessageOf [p] m) (hs : SigTail post sigs) :
      MessageOf (pre ++ p :: post) (.signed sigs (some m) true)

end Pgp.Spec
