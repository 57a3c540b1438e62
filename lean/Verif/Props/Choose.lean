import Verif.Model.Choose
import Verif.Spec.Choose
import Verif.Props.Revoked
import Verif.Props.Commands
/-
Property theorems C119: the key a message is encrypted to.
-/
namespace Pgp.Props
open Pgp Pgp.Spec

theorem says_encrypt {s : SigObj} (h : ∀ x ∈ s.subs 27, ∃ c k, x = Sub.plain c (.keyFlags k)) :
    ∃ v, s.get (.flag .encComms) = .ok v ∧ (v = some true ↔ SaysEncrypt s) := by
  have hg : s.get (.flag .encComms) = (match s.subs 27 with
    | [] => .ok none
    | x :: _ => do
      let v ← Field.read (.flag .encComms) x
      return some v) := rfl
  rw [hg]
  unfold SaysEncrypt
  generalize s.subs 27 = l at h
  cases l with
  | nil => exact ⟨none, rfl, by simp⟩
  | cons x l =>
    obtain ⟨c, k, rfl⟩ := h x List.mem_cons_self
    refine ⟨some k.encComms, rfl, ?_⟩
    constructor
    · intro h
      exact ⟨c, k, l, rfl, by simpa using h⟩
    · rintro ⟨c', k', l', h, hk⟩
      cases h
      rw [hk]

theorem mayEncrypt_iff {fl : FloorLog2} {H : Digest} {now : Int} {k : TKey} {at' : Place} {sigs : List SigObj} {ids : List Str}
    (hids : k.ownIds fl H = .ok ids) (hp : HasPart k now at' sigs) :
    ∃ b, k.mayEncrypt fl H at' = .ok b ∧ (b = true ↔ ∃ s, LastOwn ids at' sigs s ∧ SaysEncrypt s) := by
  obtain ⟨⟨g, hg, hs, hv⟩, hl⟩ := hp
  have hpart : k.signedPart fl H at' = .ok ⟨g.1.partVersion, at'.selfTypes, at'.revTypes, ids, sigs⟩ := by
    simp only [TKey.signedPart, hg, hs, hids, except_bind_ok, except_pure]
  have hdef : k.mayEncrypt fl H at' = (Part.attr ⟨g.1.partVersion, at'.selfTypes, at'.revTypes, ids, sigs⟩ .mayEncryptComms >>= fun a =>
      match a with
      | .value (some true) => return true
      | _ => return false) := by
    unfold TKey.mayEncrypt
    rw [hpart]
    rfl
  rw [hdef]
  have hlast := C42_last_listed ⟨g.1.partVersion, at'.selfTypes, at'.revTypes, ids, sigs⟩ false (fun s h => (hl s h).2.1)
  simp only [Bool.false_eq_true, if_false, selfTypes_eq] at hlast
  rcases hlast with ⟨h1, h2⟩ | ⟨n, s, h1, h2, h3, h4⟩
  · refine ⟨false, ?_, ?_⟩
    · simp only [selfTypes_eq, Part.attr, ge_iff_le, if_pos hv, h2, except_bind_ok]
      rfl
    · constructor
      · intro h; cases h
      · rintro ⟨s, ⟨n, h3, h4, _⟩, _⟩
        exact absurd h4 (h1 s (List.mem_of_getElem? h3))
  · obtain ⟨v, hv1, hv2⟩ := says_encrypt (hl s (List.mem_of_getElem? h1)).2.2
    have ha : Part.attr ⟨g.1.partVersion, at'.selfTypes, at'.revTypes, ids, sigs⟩ .mayEncryptComms = .ok (.value v) :=
      C42_attr_of_chosen _ hv .mayEncryptComms n s (by simpa only [selfTypes_eq] using h3) h1 v hv1
    rw [ha]
    have hone : (∃ s, LastOwn ids at' sigs s ∧ SaysEncrypt s) ↔ SaysEncrypt s := by
      constructor
      · rintro ⟨s', ⟨m, m1, m2, m3⟩, hs'⟩
        rcases Nat.lt_trichotomy n m with hlt | heq | hgt
        · exact absurd m2 (h4 m s' hlt m1)
        · subst heq
          rw [h1] at m1
          cases m1
          exact hs'
        · exact absurd h2 (m3 n s hgt h1)
      · exact fun h => ⟨s, ⟨n, h1, h2, h4⟩, h⟩
    rw [hone, ← hv2]
    cases v with
    | none => exact ⟨false, rfl, by simp⟩
    | some b => cases b with
      | false => exact ⟨false, rfl, by simp⟩
      | true => exact ⟨true, rfl, by simp⟩

theorem revoked_part {fl : FloorLog2} {H : Digest} {now : Int} {k : TKey} {at' : Place} {sigs : List SigObj} {ids : List Str}
    (hids : k.ownIds fl H = .ok ids) (hp : HasPart k now at' sigs) :
    ∃ b, k.revoked fl H now at' = .ok b ∧ (b = true ↔ ∃ s ∈ sigs, SaysRevoked ids now at' s) := by
  obtain ⟨⟨g, hg, hs, _⟩, hl⟩ := hp
  exact C118_revoked_iff_partial fl H now k at' g sigs ids hg hs hids fun s h => (hl s h).1

theorem encryptionSubkey_spec {fl : FloorLog2} {H : Digest} {now : Int} {k : TKey} {sigs : Place → List SigObj} {ids : List Str}
    (hids : k.ownIds fl H = .ok ids) (n : Nat) (hsub : ∀ i < n, HasPart k now (.sub i) (sigs (.sub i))) (d : Nat) (hd : d ≤ n) :
    ∃ r, k.encryptionSubkey fl H now (List.range' (n - d) d) = .ok r ∧
      ((∃ i, r = some i ∧ n - d ≤ i ∧ i < n ∧ FitFor ids now (.sub i) (sigs (.sub i)) ∧ ∀ j, n - d ≤ j → j < i → ¬FitFor ids now (.sub j) (sigs (.sub j))) ∨
        (r = none ∧ ∀ j, n - d ≤ j → j < n → ¬FitFor ids now (.sub j) (sigs (.sub j)))) := by
  induction d with
  | zero => exact ⟨none, rfl, .inr ⟨rfl, fun j h1 h2 => by omega⟩⟩
  | succ d ih =>
    obtain ⟨r, hr, hc⟩ := ih (by omega)
    have hlt : n - (d + 1) < n := by omega
    have hstep : n - (d + 1) + 1 = n - d := by omega
    have hp := hsub _ hlt
    obtain ⟨b, hb, hbi⟩ := revoked_part hids hp
    obtain ⟨m, hm, hmi⟩ := mayEncrypt_iff hids hp
    have hdef : k.encryptionSubkey fl H now (List.range' (n - (d + 1)) (d + 1)) = (do
        let r ← k.revoked fl H now (.sub (n - (d + 1)))
        if r then k.encryptionSubkey fl H now (List.range' (n - d) d)
        else do
          let b ← k.mayEncrypt fl H (.sub (n - (d + 1)))
          if b then return some (n - (d + 1)) else k.encryptionSubkey fl H now (List.range' (n - d) d)) := by
      rw [List.range'_succ, hstep]
      rfl
    rw [hdef, hb]
    simp only [except_bind_ok, hm, hr]
    have skip : ¬FitFor ids now (.sub (n - (d + 1))) (sigs (.sub (n - (d + 1)))) → ∃ r', (Except.ok r : Py (Option Nat)) = .ok r' ∧
        ((∃ i, r' = some i ∧ n - (d + 1) ≤ i ∧ i < n ∧ FitFor ids now (.sub i) (sigs (.sub i)) ∧
            ∀ j, n - (d + 1) ≤ j → j < i → ¬FitFor ids now (.sub j) (sigs (.sub j))) ∨
          (r' = none ∧ ∀ j, n - (d + 1) ≤ j → j < n → ¬FitFor ids now (.sub j) (sigs (.sub j)))) := by
      intro hno
      refine ⟨r, rfl, ?_⟩
      rcases hc with ⟨i, c1, c2, c3, c4, c5⟩ | ⟨c1, c2⟩
      · refine .inl ⟨i, c1, by omega, c3, c4, fun j j1 j2 => ?_⟩
        rcases Nat.eq_or_lt_of_le j1 with rfl | j1
        · exact hno
        · exact c5 j (by omega) j2
      · refine .inr ⟨c1, fun j j1 j2 => ?_⟩
        rcases Nat.eq_or_lt_of_le j1 with rfl | j1
        · exact hno
        · exact c2 j (by omega) j2
    cases b with
    | true => exact skip fun h => h.1 (hbi.mp rfl)
    | false =>
      cases m with
      | false => exact skip fun h => absurd (hmi.mpr h.2) (by decide)
      | true =>
        refine ⟨some (n - (d + 1)), rfl, .inl ⟨_, rfl, Nat.le_refl _, hlt, ⟨fun h => absurd (hbi.mpr h) (by decide), hmi.mp rfl⟩, fun j j1 j2 => by omega⟩⟩

/-! ### A key for the examples -/

/-- Key flags: sign, encrypt. -/
def exFlags (sign encrypt : Bool) : Sub := .plain false (.keyFlags ⟨false, sign, encrypt, false, false, false, false⟩)

def exEncKey (direct : List Sig) (subs : List (Nat × Sig)) : TKey :=
  ⟨(⟨.new, .key false false (mkPubKey 4 1000 1 none (.rsa 3233 17)) none⟩, direct.map fun s => ⟨.new, .sig s⟩),
    [(⟨.new, .uid ['A']⟩, [⟨.new, .sig (exRevSig 0x13 [exFlags true true] exZeroId)⟩])], [],
    subs.map fun s => (⟨.new, .key false true (mkPubKey 4 s.1 1 none (.rsa 3233 17)) none⟩, [⟨.new, .sig s.2⟩])⟩

theorem exLegible (now : Int) (type : Nat) (flags : List Sub) (h : flags = [] ∨ (∃ a b, flags = [exFlags a b]) ∨ ∃ a b t, flags = [exFlags a b, .plain false (.keyExpiration t)]) :
    Legible now (exRevObj type flags exZeroId) := by
  rcases h with rfl | ⟨a, b, rfl⟩ | ⟨a, b, t, rfl⟩
  · exact ⟨⟨⟨[exZeroId], rfl⟩, false, rfl⟩, ⟨⟨[exZeroId], rfl⟩, _, rfl⟩, by intro x hx; cases hx⟩
  · exact ⟨⟨⟨[exZeroId], rfl⟩, false, rfl⟩, ⟨⟨[exZeroId], rfl⟩, _, rfl⟩, by
      intro x hx
      rw [show (exRevObj type [exFlags a b] exZeroId).subs 27 = [exFlags a b] from rfl, List.mem_singleton] at hx
      exact ⟨_, _, hx⟩⟩
  · exact ⟨⟨⟨[exZeroId], rfl⟩, false, rfl⟩, ⟨⟨[exZeroId], rfl⟩, _, rfl⟩, by
      intro x hx
      rw [show (exRevObj type [exFlags a b, .plain false (.keyExpiration t)] exZeroId).subs 27 = [exFlags a b] from rfl, List.mem_singleton] at hx
      exact ⟨_, _, hx⟩⟩

theorem exSelf (type : Nat) (flags : List Sub) (types : List Nat) (h : type ∈ types) (hf : flags = [] ∨ (∃ a b, flags = [exFlags a b]) ∨ ∃ a b t, flags = [exFlags a b, .plain false (.keyExpiration t)])
    (ids : List Str) (hid : exZeroId ∈ ids) : SelfSig types ids (exRevObj type flags exZeroId) := by
  refine ⟨⟨[exZeroId], ?_, exZeroId, List.mem_singleton.mpr rfl, hid⟩, h⟩
  rcases hf with rfl | ⟨a, b, rfl⟩ | ⟨a, b, t, rfl⟩ <;> rfl

/-- The signatures of the parts of a key with two subkeys, the first for signing, the second for encryption. -/
def exEncSigs : Place → List SigObj
  | .sub 0 => [exRevObj 0x18 [exFlags true false] exZeroId]
  | .sub _ => [exRevObj 0x18 [exFlags false true] exZeroId]
  | _ => [exRevObj 0x1f [] exZeroId]

/-- C119 (part that holds): for a key that is not revoked, a message is encrypted to the first subkey that is not revoked and whose self-signature listed last has the
flag for encryption; if there is none, to the primary key, if it has that flag; else to nothing. -/
theorem C119_choice_partial (fl : FloorLog2) (H : Digest) (now : Int) (k : TKey) (ids : List Str) (hids : k.ownIds fl H = .ok ids) (sigs : Place → List SigObj)
    (hp : HasPart k now .primary (sigs .primary)) (hsub : ∀ i < k.subs.length, HasPart k now (.sub i) (sigs (.sub i)))
    (hnot : ¬∃ s ∈ sigs .primary, SaysRevoked ids now .primary s) :
    ∃ r, k.encryptionPart fl H now = .ok r ∧ EncryptsTo k.subs.length (fun p => FitFor ids now p (sigs p)) r := by
  obtain ⟨b, hb, hbi⟩ := revoked_part hids hp
  obtain ⟨m, hm, hmi⟩ := mayEncrypt_iff hids hp
  obtain ⟨r, hr, hc⟩ := encryptionSubkey_spec hids k.subs.length hsub k.subs.length (Nat.le_refl _)
  rw [Nat.sub_self, ← List.range_eq_range'] at hr
  simp only [Nat.sub_self, Nat.zero_le, true_implies, true_and] at hc
  have hbf : b = false := by
    cases b with
    | false => rfl
    | true => exact absurd (hbi.mp rfl) hnot
  subst hbf
  unfold TKey.encryptionPart
  rw [hb]
  simp only [except_bind_ok, Bool.false_eq_true, if_false, hr]
  rcases hc with ⟨i, rfl, c1, c2, c3⟩ | ⟨rfl, c1⟩
  · exact ⟨_, rfl, .subkey i c1 c2 c3⟩
  · simp only [hm, except_bind_ok]
    cases m with
    | true => exact ⟨_, rfl, .primary c1 ⟨hnot, hmi.mp rfl⟩⟩
    | false => exact ⟨_, rfl, .nothing c1 fun h => absurd (hmi.mpr h.2) (by decide)⟩

/-- The second subkey is chosen. -/
example : ∃ r, (exEncKey [exRevSig 0x1f [] exZeroId] [(1001, exRevSig 0x18 [exFlags true false] exZeroId), (1002, exRevSig 0x18 [exFlags false true] exZeroId)]).encryptionPart
    Nat.log2 exZero 5 = .ok r ∧ EncryptsTo 2 (fun p => FitFor [exZeroId, exZeroId, exZeroId] 5 p (exEncSigs p)) r ∧ FitFor [exZeroId, exZeroId, exZeroId] 5 (.sub 1) (exEncSigs (.sub 1)) := by
  obtain ⟨r, h1, h2⟩ := C119_choice_partial Nat.log2 exZero 5
    (exEncKey [exRevSig 0x1f [] exZeroId] [(1001, exRevSig 0x18 [exFlags true false] exZeroId), (1002, exRevSig 0x18 [exFlags false true] exZeroId)]) [exZeroId, exZeroId, exZeroId]
    (by show List.mapM _ [mkPubKey 4 1000 1 none (.rsa 3233 17), mkPubKey 4 1001 1 none (.rsa 3233 17), mkPubKey 4 1002 1 none (.rsa 3233 17)] = _; decide +kernel)
    exEncSigs
    ⟨⟨_, rfl, rfl, by decide⟩, by intro s hs; rw [List.mem_singleton.mp hs]; exact exLegible _ _ _ (.inl rfl)⟩
    (by
      intro i hi
      match i, hi with
      | 0, _ => exact ⟨⟨_, rfl, rfl, by decide⟩, by intro s hs; rw [List.mem_singleton.mp hs]; exact exLegible _ _ _ (.inr (.inl ⟨_, _, rfl⟩))⟩
      | 1, _ => exact ⟨⟨_, rfl, rfl, by decide⟩, by intro s hs; rw [List.mem_singleton.mp hs]; exact exLegible _ _ _ (.inr (.inl ⟨_, _, rfl⟩))⟩
      | n + 2, h => exact absurd h (by simp [exEncKey]))
    (by rintro ⟨s, hs, h, _⟩; rw [List.mem_singleton.mp hs] at h; exact absurd h (by decide))
  refine ⟨r, h1, h2, ?_, _, ⟨0, rfl, exSelf _ _ _ (by decide) (.inr (.inl ⟨_, _, rfl⟩)) _ (by simp), ?_⟩, false, _, [], rfl, rfl⟩
  · rintro ⟨s, hs, h, _⟩; rw [List.mem_singleton.mp hs] at h; exact absurd h (by decide)
  · intro m s' hm hs'
    rw [show exEncSigs (.sub 1) = [exRevObj 0x18 [exFlags false true] exZeroId] from rfl, List.getElem?_singleton, if_neg (by omega)] at hs'
    cases hs'

/-- C119: nothing is encrypted to a key that is revoked. -/
theorem C119_revoked (fl : FloorLog2) (H : Digest) (now : Int) (k : TKey) (ids : List Str) (hids : k.ownIds fl H = .ok ids) (sigs : List SigObj)
    (hp : HasPart k now .primary sigs) (s : SigObj) (hs : s ∈ sigs) (hr : SaysRevoked ids now .primary s) : Raises (k.encryptionPart fl H now) := by
  obtain ⟨b, hb, hbi⟩ := revoked_part hids hp
  have : b = true := hbi.mpr ⟨s, hs, hr⟩
  subst this
  refine ⟨.attributeError, ?_⟩
  unfold TKey.encryptionPart
  rw [hb]
  rfl

example : Raises ((exEncKey [exRevSig 0x20 [] exZeroId] []).encryptionPart Nat.log2 exZero 5) :=
  C119_revoked Nat.log2 exZero 5 (exEncKey [exRevSig 0x20 [] exZeroId] []) [exZeroId]
    (by show List.mapM _ [mkPubKey 4 1000 1 none (.rsa 3233 17)] = _; decide +kernel) [exRevObj 0x20 [] exZeroId]
    ⟨⟨_, rfl, rfl, by decide⟩, by intro s hs; rw [List.mem_singleton.mp hs]; exact exLegible _ _ _ (.inl rfl)⟩ _ List.mem_cons_self
    ⟨rfl, ⟨[exZeroId], rfl, exZeroId, by simp, by simp⟩, rfl⟩

/-- C119 (refuted): the flags of a key without subkeys stand in the certifications of its user ids, as a rule; they are not consulted. To a key that has no direct
self-signature and no subkey nothing is encrypted, whatever its certifications are. -/
theorem C119_certified_flags_refuted (fl : FloorLog2) (H : Digest) (now : Int) (k : TKey) (ids : List Str) (hids : k.ownIds fl H = .ok ids) (sigs : List SigObj)
    (hp : HasPart k now .primary sigs) (hsubs : k.subs = []) (hno : ∀ s ∈ sigs, ¬SelfSig (ownTypes .primary) ids s)
    (hnot : ¬∃ s ∈ sigs, SaysRevoked ids now .primary s) : k.encryptionPart fl H now = .ok none := by
  obtain ⟨r, hr, hc⟩ := C119_choice_partial fl H now k ids hids (fun _ => sigs) hp (by rw [hsubs]; intro i hi; cases hi) hnot
  rw [hr]
  cases hc with
  | subkey i hi _ _ => rw [hsubs] at hi; cases hi
  | primary _ hf =>
    obtain ⟨s, ⟨n, h1, h2, _⟩, _⟩ := hf.2
    exact absurd h2 (hno s (List.mem_of_getElem? h1))
  | nothing _ _ => rfl

/-- The certification of the user id has the flag for encryption. -/
example : (exEncKey [] []).encryptionPart Nat.log2 exZero 5 = .ok none :=
  C119_certified_flags_refuted Nat.log2 exZero 5 (exEncKey [] []) [exZeroId]
    (by show List.mapM _ [mkPubKey 4 1000 1 none (.rsa 3233 17)] = _; decide +kernel) []
    ⟨⟨_, rfl, rfl, by decide⟩, by intro s hs; cases hs⟩ rfl (by intro s hs; cases hs) (by rintro ⟨s, hs, _⟩; cases hs)

/-- C119 (refuted): neither the algorithm of a subkey nor whether it has expired is asked. The first subkey is encrypted to if its only signature has the flag,
even where that signature says that the subkey expired long ago, and even if the subkey can only sign. -/
theorem C119_expired_or_signing_refuted (fl : FloorLog2) (H : Digest) (now : Int) (k : TKey) (ids : List Str) (hids : k.ownIds fl H = .ok ids)
    (sigs : Place → List SigObj) (hp : HasPart k now .primary (sigs .primary)) (hsub : ∀ i < k.subs.length, HasPart k now (.sub i) (sigs (.sub i)))
    (hnot : ¬∃ s ∈ sigs .primary, SaysRevoked ids now .primary s) (g : KGroup) (rest : List KGroup) (hk : k.subs = g :: rest) (s : SigObj)
    (hs : sigs (.sub 0) = [s]) (hself : SelfSig (ownTypes (.sub 0)) ids s) (hflag : SaysEncrypt s) (pub : PubKey) (_ : g.1.pubKey = some pub)
    (_ : pub.algorithm = 17 ∨ ∃ c t, timeOf (s.subs 2) = .ok (some c) ∧ timeOf (s.subs 9) = .ok (some t) ∧ ((c + t : Nat) : Int) * 1000000 < now) :
    k.encryptionPart fl H now = .ok (some (.sub 0)) := by
  obtain ⟨r, hr, hc⟩ := C119_choice_partial fl H now k ids hids sigs hp hsub hnot
  have hfit : FitFor ids now (.sub 0) (sigs (.sub 0)) := by
    rw [hs]
    refine ⟨?_, s, ⟨0, rfl, hself, ?_⟩, hflag⟩
    · rintro ⟨x, hx, hx1, _⟩
      rw [List.mem_singleton.mp hx] at hx1
      have := hself.2
      rw [hx1] at this
      exact absurd this (by decide)
    · intro m s' hm hs'
      rw [List.getElem?_singleton, if_neg (by omega)] at hs'
      cases hs'
  rw [hr]
  cases hc with
  | subkey i hi _ first =>
    cases i with
    | zero => rfl
    | succ i => exact absurd hfit (first 0 (by omega))
  | primary hn _ => exact absurd hfit (hn 0 (by rw [hk]; simp))
  | nothing hn _ => exact absurd hfit (hn 0 (by rw [hk]; simp))

/-- A subkey made at second 1000 that expired ten seconds later is encrypted to at second 2000. -/
example : (exEncKey [] [(1000, exRevSig 0x18 [exFlags false true, .plain false (.keyExpiration 10)] exZeroId)]).encryptionPart Nat.log2 exZero 2000000000 = .ok (some (.sub 0)) :=
  C119_expired_or_signing_refuted Nat.log2 exZero 2000000000 (exEncKey [] [(1000, exRevSig 0x18 [exFlags false true, .plain false (.keyExpiration 10)] exZeroId)]) [exZeroId, exZeroId]
    (by show List.mapM _ [mkPubKey 4 1000 1 none (.rsa 3233 17), mkPubKey 4 1000 1 none (.rsa 3233 17)] = _; decide +kernel)
    (fun p => match p with | .sub _ => [exRevObj 0x18 [exFlags false true, .plain false (.keyExpiration 10)] exZeroId] | _ => [])
    ⟨⟨_, rfl, rfl, by decide⟩, by intro s hs; cases hs⟩
    (by
      intro i hi
      match i, hi with
      | 0, _ => exact ⟨⟨_, rfl, rfl, by decide⟩, by intro s hs; rw [List.mem_singleton.mp hs]; exact exLegible _ _ _ (.inr (.inr ⟨_, _, _, rfl⟩))⟩
      | n + 1, h => exact absurd h (by simp [exEncKey]))
    (by rintro ⟨s, hs, _⟩; cases hs) _ [] rfl _ rfl (exSelf _ _ _ (by decide) (.inr (.inr ⟨_, _, _, rfl⟩)) _ (by simp)) ⟨false, _, [], rfl, rfl⟩
    (mkPubKey 4 1000 1 none (.rsa 3233 17)) rfl (.inr ⟨1000, 10, rfl, rfl, by decide⟩)

/-- C65: the choice of C65, made for a key of which it is only known which parts are revoked and may encrypt, is the choice made for the key object. -/
theorem C65_key_objects (fl : FloorLog2) (H : Digest) (now : Int) (k : TKey) (revoked may : Place → Bool)
    (hp : k.revoked fl H now .primary = .ok (revoked .primary) ∧ k.mayEncrypt fl H .primary = .ok (may .primary))
    (hsub : ∀ i < k.subs.length, k.revoked fl H now (.sub i) = .ok (revoked (.sub i)) ∧ k.mayEncrypt fl H (.sub i) = .ok (may (.sub i))) (name : Str) :
    findRecipientKey (fun _ => some ⟨.primary, revoked .primary, may .primary,
      (List.range k.subs.length).map fun i => (.sub i, revoked (.sub i), may (.sub i))⟩) name = k.encryptionPart fl H now := by
  have hloop : ∀ l : List Nat, (∀ i ∈ l, i < k.subs.length) → k.encryptionSubkey fl H now l =
      .ok ((pickSubkey (l.map fun i => (i, revoked (.sub i), may (.sub i))))) := by
    intro l hl
    induction l with
    | nil => rfl
    | cons i l ih =>
      have h := hsub i (hl i List.mem_cons_self)
      have ih' := ih fun j hj => hl j (List.mem_cons_of_mem _ hj)
      rw [List.map_cons, pickSubkey, TKey.encryptionSubkey, h.1]
      simp only [except_bind_ok, h.2, ih']
      cases revoked (.sub i) <;> cases may (.sub i) <;> rfl
  have hmap : ∀ l : List Nat, pickSubkey (l.map fun i => (Place.sub i, revoked (.sub i), may (.sub i))) =
      (pickSubkey (l.map fun i => (i, revoked (.sub i), may (.sub i)))).map Place.sub := by
    intro l
    induction l with
    | nil => rfl
    | cons i l ih =>
      rw [List.map_cons, List.map_cons, pickSubkey, pickSubkey, ih]
      cases revoked (.sub i) <;> cases may (.sub i) <;> rfl
  unfold findRecipientKey TKey.encryptionPart
  simp only [hp.1, except_bind_ok, hloop _ (fun i hi => List.mem_range.mp hi), hmap]
  generalize pickSubkey (List.map (fun i => (i, revoked (.sub i), may (.sub i))) (List.range k.subs.length)) = o
  cases revoked .primary with
  | true => rfl
  | false =>
    cases o with
    | some n => rfl
    | none =>
      simp only [hp.2, except_bind_ok]
      cases may .primary <;> rfl

/-- The key with one subkey, for signing, and a direct signature that lets the primary key encrypt. -/
example := C65_key_objects Nat.log2 exZero 5 (exEncKey [exRevSig 0x1f [exFlags false true] exZeroId] [(1001, exRevSig 0x18 [exFlags true false] exZeroId)])
  (fun _ => false) (fun p => p = .primary) (by decide +kernel)
  (by intro i hi; match i, hi with | 0, _ => exact (by decide +kernel) | n + 1, h => exact absurd h (by simp [exEncKey])) "alice".toList

end Pgp.Props
