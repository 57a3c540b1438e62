import Verif.Model.Keys
/-
The packet sequences that make a transferable key, as the library has them (after RFC 4880 section 11.1).
-/
namespace Pgp.Spec

/-- A signature packet of one of these types. -/
def SigOf (types : List Nat) : KBody → Prop
  | .sig s => s.sigType ∈ types
  | _ => False

/-- A trust packet. -/
def IsTrust : KBody → Prop
  | .trust _ => True
  | _ => False

/-- A run of signatures of these types with trust packets; a trust packet comes first only where `afterSig` allows it. -/
def SigRun (types : List Nat) (afterSig : Bool) (l : List KBody) : Prop :=
  (∀ p ∈ l, SigOf types p ∨ IsTrust p) ∧ (afterSig = false → ∀ p t, l = p :: t → ¬ IsTrust p)

/-- The signatures on the key itself: direct key signatures and revocations, no direct key signature after a trust packet. -/
def DirectRun (seenTrust afterSig : Bool) (l : List KBody) : Prop :=
  SigRun [0x1f, 0x20] afterSig l ∧
  ∀ a p b, l = a ++ p :: b → SigOf [0x1f] p → seenTrust = false ∧ ∀ q ∈ a, ¬ IsTrust q

def certTypes : List Nat := [0x10, 0x11, 0x12, 0x13, 0x30]

/-- A user id with its certifications. -/
def UidGroup (l : List KBody) : Prop := ∃ s body, l = .uid s :: body ∧ SigRun certTypes false body

/-- A user attribute with its certifications. -/
def AttrGroup (l : List KBody) : Prop := ∃ as body, l = .attr as :: body ∧ SigRun certTypes false body

/-- A subkey with at least one binding signature. -/
def SubGroup (secret : Bool) (l : List KBody) : Prop :=
  ∃ k priv body, l = .key secret true k priv :: body ∧ body ≠ [] ∧ SigRun [0x18] false body

/-- A concatenation of groups. -/
def Groups (G : List KBody → Prop) (l : List KBody) : Prop := ∃ gs : List (List KBody), l = gs.flatten ∧ ∀ g ∈ gs, G g

/-- The subkeys: none unless the primary key is of version 4 or later. -/
def Subkeys (secret : Bool) (version : Nat) (l : List KBody) : Prop := Groups (SubGroup secret) l ∧ (version < 4 → l = [])

/-- A transferable key. -/
def KeySequence (secret : Bool) (ps : List KBody) : Prop :=
  ∃ k priv direct uids attrs subs, ps = .key secret false k priv :: (direct ++ uids ++ attrs ++ subs) ∧ DirectRun false false direct ∧
    Groups UidGroup uids ∧ Groups AttrGroup attrs ∧ Subkeys secret k.version subs

/-- A MIME type of an image that is not a JPEG. -/
def OtherImageMime (m : Str) : Prop := (∃ sub, m = "image/".toList ++ sub) ∧ ¬ "/jpeg".toList.isSuffixOf m = true

/-- An image subpacket as the library writes them: header version 1, length 16, and format 1 for a JPEG or 101 for another image type. -/
def StdImage (magic : Bytes → Str) : AttrSub → Prop
  | .image hv hl f d => hv = 1 ∧ hl = 16 ∧ (f = some 1 ∨ (f = some 101 ∧ OtherImageMime (magic (d.take 1024))))
  | .other _ => False

def SigV4 : Sig → Prop
  | .v4 .. => True
  | .v3 .. => False

/-- The packets of a modern key: keys without a validity period (only versions 2 and 3 have one), version 4 signatures, user ids,
and image attributes; no trust packets. -/
def Modern (magic : Bytes → Str) : KBody → Prop
  | .key _ _ k _ => k.expirationDays = none
  | .sig s => SigV4 s
  | .uid _ => True
  | .attr as => ∀ a ∈ as, StdImage magic a
  | .trust _ => False
  | .other _ => False

end Pgp.Spec
