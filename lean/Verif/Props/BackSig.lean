import Verif.Model.BackSig
import Verif.Props.SigMeaning
import Verif.Props.KeySigs
/-
C100: back signatures of subkeys.
-/
namespace Pgp.Props
open Pgp Pgp.Spec

theorem backLoop_none {data : Py (Option Bytes)} {target : Py (Option SigObj)} {l : List SigObj} (h : ∀ e ∈ l, e.sigType ≠ 0x19) : backLoop data target l = .ok () := by
  induction l with
  | nil => rfl
  | cons e l ih => rw [backLoop, if_neg (h e (by simp))]; exact ih fun x hx => h x (by simp [hx])

theorem backLoop_some {data : Py (Option Bytes)} {target : Py (Option SigObj)} {l : List SigObj} {e : SigObj} (he : e ∈ l) (h : e.sigType = 0x19) :
    Raises (backLoop data target l) := by
  induction l with
  | nil => cases he
  | cons x l ih =>
    rw [backLoop]
    by_cases hx : x.sigType = 0x19
    · rw [if_pos hx]
      cases data with
      | error e => exact ⟨_, rfl⟩
      | ok d => cases target with
        | error e => exact ⟨_, rfl⟩
        | ok t => exact ⟨_, rfl⟩
    · rw [if_neg hx]
      rcases List.mem_cons.mp he with rfl | he
      · exact absurd h hx
      · exact ih he

variable {fl : FloorLog2} {fmt : HeaderFormat} {t p h : UInt8} {hashed unhashed : List RawSub} {left : Bytes} {values : List Nat} {b : Bytes} {sig : Sig} {s : SigObj}

/-- The binding signature states, in its first subpacket of key flags, that the subkey may sign data. -/
def StatesSigning (subs : List RawSub) : Prop := ∃ c, firstContent 27 subs = some c ∧ bitIs 1 c true

/-- C100 (refuted): the binding signature of a subkey that may sign data is never accepted, whatever back signature is embedded in it. -/
theorem C100_signing_refuted (hr : SigRaw t p h hashed unhashed left values b) (hp : parseSig b = .ok sig) (hs : SigObj.fromPacket fmt sig = .ok s)
    (hsign : StatesSigning (hashed ++ unhashed)) (sigs : List SigObj) (i : Nat) : Raises (checkBackSignatures fl sigs i s) := by
  obtain ⟨c, hc, hb⟩ := hsign
  have hg := (C85_attribute_stated_partial hr hp hs (.flag .sign) (by decide)).1 c true hc hb
  unfold checkBackSignatures
  cases s.embeddedSigs with
  | error e => exact ⟨_, rfl⟩
  | ok l =>
    rw [except_bind_ok]
    cases backLoop (hashedSubpacketData fl s) (targetOf sigs i s) l with
    | error e => exact ⟨_, rfl⟩
    | ok u => rw [except_bind_ok, hg]; exact ⟨_, rfl⟩

/-- C100 (refuted): nor is one that holds a back signature, valid or not. -/
theorem C100_back_signature_refuted (hr : SigRaw t p h hashed unhashed left values b) (hp : parseSig b = .ok sig) (hs : SigObj.fromPacket fmt sig = .ok s)
    (es : List SigObj) (hn : List.Forall₂ (fun c e => ∃ g, parseSig c = .ok g ∧ SigObj.fromPacket .new g = .ok e) (contents 32 (hashed ++ unhashed)) es)
    (e : SigObj) (he : e ∈ es) (hb : e.sigType = 0x19) (sigs : List SigObj) (i : Nat) : Raises (checkBackSignatures fl sigs i s) := by
  have hl := C85_embedded hr hp hs es hn
  obtain ⟨er, h⟩ := backLoop_some (data := hashedSubpacketData fl s) (target := targetOf sigs i s) he hb
  exact ⟨er, by rw [checkBackSignatures, hl, except_bind_ok, h]; rfl⟩

/-- C100: the binding signature of a subkey that is not to sign data, without a back signature, is accepted. -/
theorem C100_other_accepted_partial (hr : SigRaw t p h hashed unhashed left values b) (hp : parseSig b = .ok sig) (hs : SigObj.fromPacket fmt sig = .ok s)
    (es : List SigObj) (hn : List.Forall₂ (fun c e => ∃ g, parseSig c = .ok g ∧ SigObj.fromPacket .new g = .ok e) (contents 32 (hashed ++ unhashed)) es)
    (hb : ∀ e ∈ es, e.sigType ≠ 0x19) (hsign : ∀ c, firstContent 27 (hashed ++ unhashed) = some c → bitIs 1 c false) (sigs : List SigObj) (i : Nat) :
    checkBackSignatures fl sigs i s = .ok () := by
  have hl := C85_embedded hr hp hs es hn
  have ha := C85_attribute_stated_partial hr hp hs (.flag .sign) (by decide)
  rw [checkBackSignatures, hl, except_bind_ok, backLoop_none hb, except_bind_ok]
  cases hc : firstContent 27 (hashed ++ unhashed) with
  | none => rw [ha.2 hc]; rfl
  | some c => rw [ha.1 c false hc (hsign c hc)]; rfl

/-- C100 (refuted): the function that checks a signature of a key together with its back signatures never succeeds. -/
theorem C100_validate_refuted (key : CheckKey) (s : SigObj) (strict : Bool) (now : Option Int) : Raises (validateKeySignature key s strict now) := by
  obtain ⟨e, h⟩ := C40_check_signature_always_raises key s strict now
  exact ⟨e, by rw [validateKeySignature, h]; rfl⟩

/-- C100: what is hashed for a signature that was received is its hashed area as it came in (`SubsWire`: content that is kept, C82), and nothing of the unhashed area. -/
theorem C100_hashed_octets_partial (fl : Nat → Nat) (good : Nat → Prop) (hg : ∀ i, good i → LogRoom fl i ∧ (0 < i → fl i = Nat.log2 i)) (fmt : HeaderFormat)
    (t p h x y : UInt8) (hashed unhashed : Bytes) (values : List Nat) (hh : SubsWire good hashed) (hu : SubsWire good unhashed)
    (lh : hashed.length < 65536) (lu : unhashed.length < 65536) (hv : ∀ i ∈ values, good i) :
    ∃ sig s, parseSig ([4, t, p, h] ++ beBytes 2 hashed.length ++ hashed ++ beBytes 2 unhashed.length ++ unhashed ++ [x, y] ++ (values.map mpi).flatten) = .ok sig ∧
      SigObj.fromPacket fmt sig = .ok s ∧ hashedSubpacketData fl s = .ok (some hashed) := by
  obtain ⟨hs', h1, h2⟩ := subsWire_ok hg hh
  obtain ⟨us, h3, h4⟩ := subsWire_ok hg hu
  have hok : SigOk fl (.v4 4 t.toNat p.toNat h.toNat hs' us [x, y] (values.map some)) :=
    .v4 (uint8_lt t) (uint8_lt p) (uint8_lt h) h1 h3 ⟨_, h2, lh⟩ ⟨_, h4, lu⟩ rfl fun i hi => (hg i (hv i hi)).1
  have hcont : Sig.content fl (.v4 4 t.toNat p.toNat h.toNat hs' us [x, y] (values.map some)) =
      .ok ([4, t, p, h] ++ beBytes 2 hashed.length ++ hashed ++ beBytes 2 unhashed.length ++ unhashed ++ [x, y] ++ (values.map mpi).flatten) := by
    rw [Sig.content, byteOf_lt (show 4 < 256 by decide), h2, h4, sigValues_mpis fun i hi => (hg i (hv i hi)).2]
    simp only [byteOf_toNat, except_bind_ok, except_pure, intTo2byte_eq]
    rfl
  obtain ⟨e, h5, h6⟩ := sigOk_write hok
  rw [hcont] at h5
  cases h5
  refine ⟨_, ⟨4, t.toNat, p.toNat, h.toNat, none, none, hs', us, [x, y], values.map some, fmt⟩, h6, rfl, ?_⟩
  simp only [hashedSubpacketData]
  rw [if_neg (by decide), if_pos (by decide), h2]
  rfl

example := C100_hashed_octets_partial Nat.log2 (fun i => i = 5) (by
  rintro i rfl; exact ⟨logRoom_of_exact rfl (Nat.lt_of_lt_of_le (by decide : 5 < 2 ^ 3) (Nat.pow_le_pow_right (by omega) (by omega))), fun _ => rfl⟩) .new 0x18 1 8 1 2 [2, 25, 1] [] [5]
  (.cons (a := [2, 25, 1]) (b := []) (.plain (critical := false) (ty := 25) (l := [2]) (d := [1]) (shortest_one (by decide) (by decide)) (.bool (by decide) (by decide))) .nil)
  .nil (by decide) (by decide) (by simp)

/-- C100: of a version 2 or 3 signature, which has no subpackets, none are hashed. -/
theorem C100_hashed_octets_old (fl : Nat → Nat) (fmt : HeaderFormat) (v : UInt8) (hv : v = 2 ∨ v = 3) (rest : Bytes) (sig : Sig) (s : SigObj)
    (hp : parseSig (v :: rest) = .ok sig) (hs : SigObj.fromPacket fmt sig = .ok s) : hashedSubpacketData fl s = .ok (some []) := by
  have h0 : idx (v :: rest) 0 = .ok v := rfl
  rw [parseSig_eq, h0, except_bind_ok, if_pos hv] at hp
  unfold parseSigV3 at hp
  obtain ⟨_, _, hp⟩ := except_bind_eq_ok.mp hp
  split at hp
  · cases hp
  obtain ⟨_, _, hp⟩ := except_bind_eq_ok.mp hp
  obtain ⟨_, _, hp⟩ := except_bind_eq_ok.mp hp
  obtain ⟨_, _, hp⟩ := except_bind_eq_ok.mp hp
  obtain ⟨_, _, hp⟩ := except_bind_eq_ok.mp hp
  obtain ⟨_, _, hp⟩ := except_bind_eq_ok.mp hp
  obtain ⟨_, _, hp⟩ := except_bind_eq_ok.mp hp
  cases hp
  have hv' : v.toNat = 2 ∨ v.toNat = 3 := by rcases hv with rfl | rfl <;> decide
  simp only [SigObj.fromPacket, if_pos hv', Except.ok.injEq] at hs
  subst hs
  unfold hashedSubpacketData
  rw [if_pos hv']

example : ∃ sig s, parseSig [3, 5, 0, 0, 0, 0, 1, 1, 2, 3, 4, 5, 6, 7, 8, 1, 2, 9, 9, 0, 1, 1] = .ok sig ∧ SigObj.fromPacket .old sig = .ok s ∧
    hashedSubpacketData Nat.log2 s = .ok (some []) := by
  have h : ∃ sig s, parseSig [3, 5, 0, 0, 0, 0, 1, 1, 2, 3, 4, 5, 6, 7, 8, 1, 2, 9, 9, 0, 1, 1] = .ok sig ∧ SigObj.fromPacket .old sig = .ok s := by
    rw [parseSig_eq]
    exact ⟨_, _, rfl, rfl⟩
  obtain ⟨sig, s, h1, h2⟩ := h
  exact ⟨sig, s, h1, h2, C100_hashed_octets_old Nat.log2 .old 3 (.inr rfl) _ sig s h1 h2⟩

/-! ### Examples -/

example : ∃ s o, parseSig exRaw = .ok s ∧ SigObj.fromPacket .new s = .ok o ∧ Raises (checkBackSignatures Nat.log2 [o] 0 o) :=
  let ⟨s, h1, o, h2⟩ := exRaw_read
  ⟨s, o, h1, h2, C100_signing_refuted exRaw_ok h1 h2 ⟨[3], rfl, 3, [], rfl, by decide⟩ [o] 0⟩

example : ∃ s o, parseSig exRich = .ok s ∧ SigObj.fromPacket .new s = .ok o ∧ checkBackSignatures Nat.log2 [o] 0 o = .ok () := by
  obtain ⟨s, h1, o, h2⟩ := exRich_read
  obtain ⟨g, h3, e, h4⟩ := exRaw_read
  refine ⟨s, o, h1, h2, C100_other_accepted_partial exRich_ok h1 h2 [e] (.cons ⟨g, h3, h4⟩ .nil) ?_ ?_ [o] 0⟩
  · intro x hx
    rw [List.mem_singleton] at hx
    subst hx
    rw [(C85_header exRaw_ok h3 h4).2.1]
    decide
  · intro c hc
    have : firstContent 27 (exRichH ++ []) = none := rfl
    rw [this] at hc
    cases hc

/-- A back signature without subpackets, and a binding signature with it in the unhashed area. -/
def exBack : Bytes := [4, 0x19, 1, 8] ++ beBytes 2 ([] : Bytes).length ++ [] ++ beBytes 2 ([] : Bytes).length ++ [] ++ [5, 6] ++ ([] : List Bytes).flatten
theorem exBack_ok : SigRaw 0x19 1 8 [] [] [5, 6] [] exBack := ⟨[], [], [], .nil, .nil, by decide, by decide, rfl, .nil, rfl⟩
theorem exBack_read : ∃ s, parseSig exBack = .ok s ∧ ∃ o, SigObj.fromPacket .new s = .ok o := by
  rw [parseSig_raw exBack_ok]
  exact ⟨_, rfl, _, rfl⟩
def exBindU : Bytes := ([11] ++ [UInt8.ofNat (32 + if false then 128 else 0)] ++ exBack) ++ []
def exBind : Bytes := [4, 0x18, 1, 8] ++ beBytes 2 ([] : Bytes).length ++ [] ++ beBytes 2 exBindU.length ++ exBindU ++ [5, 6] ++ ([] : List Bytes).flatten
theorem exBind_ok : SigRaw 0x18 1 8 [] [⟨32, false, exBack⟩] [5, 6] [] exBind :=
  ⟨[], exBindU, [], .nil, .cons (r := ⟨32, false, exBack⟩) (NewDefinite.one _ (by decide)) (by decide) .nil, by decide, by decide, rfl, .nil, rfl⟩

example : ∃ s o, parseSig exBind = .ok s ∧ SigObj.fromPacket .new s = .ok o ∧ Raises (checkBackSignatures Nat.log2 [o] 0 o) := by
  obtain ⟨g, h3, e, h4⟩ := exBack_read
  have he : readRaw ⟨32, false, exBack⟩ = .ok (.embedded false g) := by
    rw [readRaw, readSub, if_pos rfl, h3]
    rfl
  have hr : ∃ s, parseSig exBind = .ok s ∧ ∃ o, SigObj.fromPacket .new s = .ok o := by
    rw [parseSig_raw exBind_ok]
    simp only [List.mapM_cons, List.mapM_nil, he, except_bind_ok, except_pure]
    exact ⟨_, rfl, _, rfl⟩
  obtain ⟨s, h1, o, h2⟩ := hr
  exact ⟨s, o, h1, h2, C100_back_signature_refuted exBind_ok h1 h2 [e] (.cons ⟨g, h3, h4⟩ .nil) e (by simp) (C85_header exBack_ok h3 h4).2.1 [o] 0⟩

end Pgp.Props
