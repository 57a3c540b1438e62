import Verif.Model.KeyUse
import Verif.Spec.KeyUse
import Verif.Props.Unlock
import Verif.Props.SignMsg
import Verif.Props.KeyIds
import Verif.Props.PubEncrypt
/-
Property theorems C111: a secret key file and the public key file made from it, signing and verifying.
-/
namespace Pgp.Props
open Spec

/-! ### The public values of the parts of a key that was read -/

/-- The public values in the key packets. -/
def packetKeys (ps : List KPacket) : List PubKey :=
  ps.filterMap fun p => match p.body with
    | .key _ _ k _ => some { k with expirationDays := none }
    | _ => none

theorem packetKeys_append (a b : List KPacket) : packetKeys (a ++ b) = packetKeys a ++ packetKeys b := List.filterMap_append

theorem packetKeys_none {ps : List KPacket} (h : ∀ p ∈ ps, ∀ s u k priv, p.body ≠ .key s u k priv) : packetKeys ps = [] := by
  unfold packetKeys
  rw [List.filterMap_eq_nil_iff]
  intro p hp
  have := h p hp
  cases hb : p.body with
  | key s u k priv => exact absurd hb (this s u k priv)
  | _ => rfl

theorem sigOf_nokey {types : List Nat} {b : KBody} (h : SigOf types b) : ∀ s u k priv, b ≠ .key s u k priv := by
  rintro s u k priv rfl
  exact h

theorem elem_pubKey {magic : Bytes → Str} {f : HeaderFormat} {s u : Bool} {k : PubKey} {priv : Option SecPart} {e : KElem}
    (h : ElementOf magic ⟨f, .key s u k priv⟩ e) : e.pubKey = some { k with expirationDays := none } := by
  obtain ⟨_, he⟩ := h
  simp only at he
  simp only [KElem.pubKey, he]

theorem groups_nokey {gs : List PGroup} (h : ∀ g ∈ gs, (∀ s u k priv, g.lead.body ≠ .key s u k priv) ∧ ∀ p ∈ g.sigs, SigOf certTypes p.body) :
    packetKeys (groupsFlat gs) = [] := by
  refine packetKeys_none fun p hp => ?_
  obtain ⟨l, hl, hp⟩ := List.mem_flatten.mp hp
  obtain ⟨g, hg, rfl⟩ := List.mem_map.mp hl
  rcases List.mem_cons.mp hp with rfl | hp
  · exact (h g hg).1
  · exact sigOf_nokey ((h g hg).2 p hp)

theorem subs_pubKeys {magic : Bytes → Str} {secret : Bool} {gs : List PGroup} {es : List KGroup}
    (hp : List.Forall₂ (fun g e => PartOf magic (PGroup.block g) e) gs es)
    (hk : ∀ g ∈ gs, (∃ k priv, g.lead.body = .key secret true k priv) ∧ g.sigs ≠ [] ∧ ∀ p ∈ g.sigs, SigOf [0x18] p.body) :
    es.mapM (fun g => g.1.pubKey) = some (packetKeys (groupsFlat gs)) := by
  induction hp with
  | nil => rfl
  | cons h1 _ ih =>
    rename_i g e gs es _
    obtain ⟨⟨k, priv, hb⟩, _, hs⟩ := hk g List.mem_cons_self
    have ih := ih fun g hg => hk g (List.mem_cons_of_mem _ hg)
    have hf : groupsFlat (g :: gs) = [g.lead] ++ (g.sigs ++ groupsFlat gs) := by simp [groupsFlat, PGroup.packets]
    rw [hf, packetKeys_append, packetKeys_append, packetKeys_none (ps := g.sigs) fun p hp => sigOf_nokey (hs p hp)]
    obtain ⟨⟨f, b⟩, ss⟩ := g
    simp only at hb
    subst hb
    rw [List.mapM_cons, elem_pubKey h1.1, ih]
    rfl

/-- What was read from a key file has the public values of its key packets, in order. -/
theorem pubKeys_of {magic : Bytes → Str} {secret : Bool} {ps : List KPacket} {k : TKey} (hs : KeySequence secret (ps.map KPacket.body))
    (hnt : ∀ p ∈ ps, ¬ IsTrust p.body) (hk : TKey.fromPackets magic secret ps = .ok k) : k.pubKeys = some (packetKeys ps) := by
  obtain ⟨A, hA, rfl⟩ := arr_of hs hnt
  have hr := arr_read hA hk
  have e1 := elem_pubKey hr.primary.1
  have e2 := subs_pubKeys hr.subs hA.subs
  have e3 : packetKeys A.direct = [] := packetKeys_none fun p hp => sigOf_nokey (hA.direct p hp)
  have e4 : packetKeys (groupsFlat A.uids) = [] := groups_nokey fun g hg => by
    obtain ⟨h1, h2⟩ := hA.uids g hg
    refine ⟨fun s u k priv hb => ?_, h2⟩
    rw [hb] at h1; exact h1
  have e5 : packetKeys (groupsFlat A.attrs) = [] := groups_nokey fun g hg => by
    obtain ⟨h1, h2⟩ := hA.attrs g hg
    refine ⟨fun s u k priv hb => ?_, h2⟩
    rw [hb] at h1; exact h1
  have e6 : packetKeys (A.packets secret) = { A.key with expirationDays := none } :: packetKeys (groupsFlat A.subs) := by
    show packetKeys ([_] ++ (A.direct ++ (groupsFlat A.uids ++ (groupsFlat A.attrs ++ (groupsFlat A.subs ++ []))))) = _
    rw [packetKeys_append, packetKeys_append, packetKeys_append, packetKeys_append, e3, e4, e5, List.append_nil]
    rfl
  rw [e6]
  simp only [TKey.pubKeys, e1, e2]
  rfl

theorem packetKeys_public (ps : List KPacket) : packetKeys (ps.map KPacket.toPublic) = packetKeys ps := by
  unfold packetKeys
  rw [List.filterMap_map]
  congr 1
  funext p
  obtain ⟨f, b⟩ := p
  cases b <;> rfl

/-- The secret objects have these public values. -/
theorem secRing_pubKeys {k : TKey} {ring : SecRing} (hr : k.secRing = some ring) {ks : List PubKey} (hk : k.pubKeys = some ks)
    (hd : ∀ x ∈ ks, x.expirationDays = none) : ks = (SecRing.parts ring).map SecObj.pubPart := by
  have one : ∀ (e : KElem) o x, e.secObj = some o → e.pubKey = some x → x.expirationDays = none → x = o.pubPart := by
    rintro ⟨f, it⟩ o x h1 h2 h3
    cases it with
    | key s u k priv =>
      cases h2
      cases s <;> cases priv <;> first | cases h1 | skip
      cases x
      simp only at h3
      subst h3
      rfl
    | _ => cases h2
  have all : ∀ (gs : List KGroup) os xs, gs.mapM (fun g => g.1.secObj) = some os → gs.mapM (fun g => g.1.pubKey) = some xs →
      (∀ x ∈ xs, x.expirationDays = none) → xs = os.map SecObj.pubPart := by
    intro gs
    induction gs with
    | nil => intro os xs h1 h2 _; cases h1; cases h2; rfl
    | cons g gs ih =>
      intro os xs h1 h2 h3
      rw [List.mapM_cons] at h1 h2
      cases ha : g.1.secObj with
      | none => rw [ha] at h1; cases h1
      | some o =>
      cases hb : g.1.pubKey with
      | none => rw [hb] at h2; cases h2
      | some x =>
      cases hc : gs.mapM (fun g => g.1.secObj) with
      | none => rw [ha, hc] at h1; cases h1
      | some os' =>
      cases hd : gs.mapM (fun g => g.1.pubKey) with
      | none => rw [hb, hd] at h2; cases h2
      | some xs' =>
      rw [ha, hc] at h1
      rw [hb, hd] at h2
      cases h1
      cases h2
      rw [List.map_cons, ← one _ _ _ ha hb (h3 x List.mem_cons_self), ← ih _ _ hc hd fun y hy => h3 y (List.mem_cons_of_mem _ hy)]
  unfold TKey.secRing at hr
  unfold TKey.pubKeys at hk
  cases ha : k.primary.1.secObj with
  | none => rw [ha] at hr; cases hr
  | some o =>
  cases hb : k.primary.1.pubKey with
  | none => rw [hb] at hk; cases hk
  | some x =>
  cases hc : k.subs.mapM (fun g => g.1.secObj) with
  | none => rw [ha, hc] at hr; cases hr
  | some os' =>
  cases hd' : k.subs.mapM (fun g => g.1.pubKey) with
  | none => rw [hb, hd'] at hk; cases hk
  | some xs' =>
  rw [ha, hc] at hr
  rw [hb, hd'] at hk
  cases hr
  cases hk
  rw [one _ _ _ ha hb (hd x List.mem_cons_self), all _ _ _ hc hd' fun y hy => hd y (List.mem_cons_of_mem _ hy)]
  rfl

theorem packetKeys_days (ps : List KPacket) : ∀ x ∈ packetKeys ps, x.expirationDays = none := by
  intro x hx
  obtain ⟨p, _, h⟩ := List.mem_filterMap.mp hx
  cases hb : p.body <;> rw [hb] at h <;> cases h
  rfl

/-- The parts of a secret key that was read, and those of the public key made from it, written and read again, have the same public values. -/
theorem exported_parts {magic : Bytes → Str} {F : HeaderFormat → Prop} {fl : Nat → Nat} (hl : LogOnCounts fl) {good : Nat → Prop} (hg : GoodInts fl good)
    {data : Bytes} (h : SecretKeyFile magic F good data) {expires : Nat → Py Unit} {k pub : TKey} (hk : readKey magic data = .ok k)
    (hp : k.toPublic expires = .ok pub) {ring : SecRing} (hr : k.secRing = some ring) :
    ∃ data' k', pub.octets fl none = .ok data' ∧ readKey magic data' = .ok k' ∧ k'.pubKeys = some ((SecRing.parts ring).map SecObj.pubPart) := by
  obtain ⟨ps, h1, h2⟩ := secret_file_rep hl hg h
  obtain ⟨k1, h3, h4, _, h3'⟩ := rep_read_full h1 h2
  rw [hk] at h3
  cases h3
  obtain ⟨hs, hn⟩ := sequence_half h2
  obtain ⟨b', hr', hh⟩ := rep_half hg h1 (fun p hpp => hn _ (List.mem_map_of_mem hpp))
  have hs' : KeySequence false ((ps.map KPacket.toPublic).map KPacket.body) := by
    have : (ps.map KPacket.toPublic).map KPacket.body = (ps.map KPacket.body).map KBody.toPublic := by simp [KPacket.toPublic, Function.comp_def]
    rw [this]; exact hs
  obtain ⟨k2, h5, h6, h7, h8⟩ := rep_read_full hr' hs'
  have hk' := toPublic_packets magic true ps ps k pub expires h3' h4 hp
  have ho : pub.octets fl none = .ok b' := by
    have := h7 none (fun _ _ => rfl)
    unfold TKey.octets at this ⊢
    rw [h6] at this
    rw [hk']; exact this
  have nt : ∀ {b : Bytes} {qs : List KPacket}, Rep magic F fl good b qs → ∀ p ∈ qs, ¬ IsTrust p.body := by
    rintro b qs ⟨rs, es, hh, _, _⟩ p hp ht
    obtain ⟨r, _, hr⟩ := forall₂_mem_right hh p hp
    have hm : Modern magic p.body := hr.2.2.2.1
    cases hb : p.body <;> rw [hb] at ht hm <;> first | exact ht | exact hm
  have q1 := pubKeys_of h2 (nt h1) h3'
  have q2 := pubKeys_of hs' (nt hr') h8
  rw [packetKeys_public] at q2
  rw [secRing_pubKeys hr q1 (packetKeys_days ps)] at q2
  exact ⟨b', k2, ho, h5, q2⟩

/-! ### Signing with one key object and verifying with another -/

/-- The key `V` verifies what the key `K` signs. -/
structure Counterpart (H : Digest) (K V : SignKey) : Prop where
  id : V.keyId = K.keyId
  alg : V.alg = K.alg
  emsa : V.prims.emsa = K.prims.emsa
  rsa : K.alg = 1 ∨ K.alg = 3 → ∀ h x, digestOctets h ≠ none → V.prims.rsaVerify h (H h x) (K.prims.rsaSign h (H h x)) = true
  elg : K.alg = 20 → ∀ d, V.prims.elgVerify d [(K.prims.elgSign d).1, (K.prims.elgSign d).2] = true
  dsa : K.alg = 17 → V.prims.dsaQ = K.prims.dsaQ ∧ ∀ d, V.prims.dsaVerify d [(K.prims.dsaSign d).1, (K.prims.dsaSign d).2] = true

/-- A key that signs as `K` and verifies as `V`. -/
def joinKeys (K V : SignKey) : SignKey :=
  ⟨K.keyId, K.alg, K.locked, { K.prims with
    rsaVerify := if K.alg = 1 ∨ K.alg = 3 then V.prims.rsaVerify else fun _ _ _ => true
    elgVerify := if K.alg = 20 then V.prims.elgVerify else fun _ _ => true
    dsaVerify := if K.alg = 17 then V.prims.dsaVerify else fun _ _ => true }⟩

theorem join_verifyItem {fl : Nat → Nat} {H : Digest} {K V : SignKey} (c : Counterpart H K V) (i : Item) (s : Sig) :
    verifyItem fl H (joinKeys K V) i s = verifyItem fl H V i s := by
  cases s with
  | v3 => rfl
  | v4 v t p h hs us h2 vs =>
    have key : p = K.alg → ∀ d l, verifyHash fl (joinKeys K V).prims p h d l = verifyHash fl V.prims p h d l := by
      rintro rfl d l
      unfold verifyHash joinKeys
      dsimp only
      by_cases h1 : K.alg = 1 ∨ K.alg = 3
      · simp only [if_pos h1]
      · simp only [if_neg h1]
        by_cases h2 : K.alg = 20
        · simp only [if_pos h2, c.emsa]
        · simp only [if_neg h2]
          by_cases h3 : K.alg = 17
          · simp only [if_pos h3, (c.dsa h3).1]
          · simp only [if_neg h3]
    have e1 : (joinKeys K V).keyId = K.keyId := rfl
    have e2 : (joinKeys K V).alg = K.alg := rfl
    generalize joinKeys K V = J at *
    simp only [verifyItem, c.id, c.alg, e1, e2]
    by_cases hid : K.keyId ∉ issuersOf (hs ++ us)
    · rw [if_pos hid, if_pos hid]
    · rw [if_neg hid, if_neg hid]
      by_cases hp : K.alg ≠ p
      · rw [if_pos hp, if_pos hp]
      · rw [if_neg hp, if_neg hp]
        have hp : p = K.alg := by by_contra hc; exact hp (Ne.symm hc)
        simp only [key hp]

theorem join_correct {H : Digest} {K V : SignKey} (c : Counterpart H K V) {h : Nat} (hh : digestOctets h ≠ none) : PrimsCorrect H h (joinKeys K V).prims := by
  refine ⟨fun x => ?_, fun d => ?_, fun d => ?_⟩
  · by_cases h1 : K.alg = 1 ∨ K.alg = 3
    · simp only [joinKeys, if_pos h1]; exact c.rsa h1 h x hh
    · simp only [joinKeys, if_neg h1]
  · by_cases h1 : K.alg = 20
    · simp only [joinKeys, if_pos h1]; exact c.elg h1 d
    · simp only [joinKeys, if_neg h1]
  · by_cases h1 : K.alg = 17
    · simp only [joinKeys, if_pos h1]; exact (c.dsa h1).2 d
    · simp only [joinKeys, if_neg h1]

theorem hash_known {h : Nat} (hh : getHashInstance h = .ok ()) : digestOctets h ≠ none := by
  have hm := getHashInstance_ok.mp hh
  have : ∀ a ∈ digests, digestOctets a ≠ none := by decide
  exact this h hm

theorem counterpart_item {fl : Nat → Nat} {H : Digest} (hH : DigestOk H) {K V : SignKey} (c : Counterpart H K V) {i : Item} (hi : ∀ b, i ≠ .raw b)
    {t h now : Nat} {subs : List Sub} {sig : Sig} (hf : K.alg = 1 ∨ K.alg = 3 → FullLength fl H K i t h subs now)
    (hs : signItem fl H K i 4 t h subs now = .ok sig) : verifyItem fl H V i sig = .ok true := by
  rw [← join_verifyItem c]
  obtain ⟨_, _, e2, _⟩ := sign_shape hs
  exact C28_sign_verify_partial fl H hH (joinKeys K V) h (join_correct c (hash_known e2)) i hi t subs now sig hf hs

theorem counterpart_message {fl : Nat → Nat} (hl : LogOnCounts fl) {H : Digest} (hH : DigestOk H) {K V : SignKey} (c : Counterpart H K V)
    (o : Nat → Py Bytes) (accept : RawPacket → Py Unit) {m : Msg} (hm : SinglePacket m) {d : Bytes} (hd : LiteralData m d) (hlen : d.length < 2 ^ 32 - 2000)
    (prefs : Py (Got (List Nat))) {t h now : Nat} (hid : K.keyId.length = 16 ∧ UpperHex K.keyId) (hnow : now < 2 ^ 32)
    (hf : K.alg = 1 ∨ K.alg = 3 → ∀ d, m.signable t = .ok d → FullLength fl H K (.document d) t h [] now)
    (hroom : ∀ d values, signHash fl K.prims K.alg h d = .ok values → ∀ n ∈ values, LogRoom fl n) {s : Msg}
    (hs : m.sign fl H K prefs 4 t (some h) true now = .ok s) :
    ∃ sig w, s = signedMessage [sig] m ∧ s.bytes fl o = .ok w ∧ readMessage accept w = .ok s ∧ verifyDocument fl H V m sig = .ok true := by
  have hh : getHashInstance h = .ok () := by
    unfold Msg.sign at hs
    obtain ⟨h', hh, hs⟩ := except_bind_eq_ok.mp hs
    cases hh
    obtain ⟨sig, hsig, _⟩ := except_bind_eq_ok.mp hs
    obtain ⟨d, _, hi⟩ := signDocument_ok hsig
    exact (sign_shape hi).2.2.1
  obtain ⟨sig, w, h1, h2, h3, h4⟩ := C95_sign_send_verify_partial fl hl H hH o accept m hm d hd hlen (joinKeys K V) prefs t h now
    ⟨join_correct c (hash_known hh), hid, hnow, hf, hroom⟩ s hs
  refine ⟨sig, w, h1, h2, h3, ?_⟩
  cases sig with
  | v3 => exact h4
  | v4 v t' p h' hs us h2 vs =>
    simp only [verifyDocument] at h4 ⊢
    cases hx : m.signable t' with
    | ok d => simp only [hx] at h4 ⊢; rw [← join_verifyItem c]; exact h4
    | error e =>
      simp only [hx] at h4 ⊢
      rw [c.id, c.alg]
      exact h4

/-! ### C111 -/

/-- The numbers of a public key. -/
theorem public_numbers {v c alg : Nat} {m : KeyMaterial} (hf : m.fits alg) (ha : alg ≠ 2) {priv numbers : List Nat} (hp : PrivateFor m priv numbers) :
    ∃ pub, (mkPubKey v c alg none m).keyNumbers = .ok pub ∧ pub.headD 0 = numbers.headD 0 ∧ (alg = 17 → pub.getD 3 0 = numbers.getD 3 0) ∧
      ∀ (L : CryptoLib) hash, SignsFor L hash numbers m →
        (alg = 1 ∨ alg = 3 → ∀ h x, digestOctets h ≠ none → L.rsaVerify pub h (hash h x) (L.rsaSign numbers h (hash h x)) = true) ∧
        (alg = 20 → ∀ d, L.elgVerify pub d [(L.elgSign numbers d).1, (L.elgSign numbers d).2] = true) ∧
        (alg = 17 → ∀ d, L.dsaVerify pub d [(L.dsaSign numbers d).1, (L.dsaSign numbers d).2] = true) := by
  cases hp with
  | rsa n e d p q u =>
    refine ⟨[n, e], ?_, rfl, fun h => ?_, fun L hash hs => ⟨fun _ => hs, fun h => ?_, fun h => ?_⟩⟩
    · rcases hf with rfl | rfl | rfl
      · rfl
      · exact absurd rfl ha
      · rfl
    all_goals rcases hf with h' | h' | h' <;> omega
  | dsa p q g y x =>
    cases hf
    exact ⟨[y, g, p, q], rfl, rfl, fun _ => rfl, fun L hash hs => ⟨fun h => absurd h (by decide), fun h => absurd h (by decide), fun _ => hs⟩⟩
  | elgamal p g y x =>
    refine ⟨[p, g, y], ?_, rfl, fun h => ?_, fun L hash hs => ⟨fun h => ?_, fun _ => hs, fun h => ?_⟩⟩
    · rcases hf with rfl | rfl <;> rfl
    all_goals rcases hf with h' | h' <;> omega

/-- A secret key object `s` with these numbers, read from a packet with this content, and its public counterpart `p`. -/
structure Halves (fl : Nat → Nat) (H : Digest) (content : Bytes) (numbers : List Nat) (s : SecObj) (p : PubKey) where
  v : Nat
  c : Nat
  alg : Nat
  m : KeyMaterial
  priv : List Nat
  id : Bytes
  fits : m.fits alg
  not2 : alg ≠ 2
  priv_ok : PrivateFor m priv numbers
  pub : p = mkPubKey v c alg none m
  secAlg : s.alg = alg
  open_ : s.locked = false
  nums : s.keyNumbers = .ok numbers
  idLen : id.length = 8
  secId : s.pubPart.objectKeyId fl H = .ok (hexText id)
  pubId : p.objectKeyId fl H = .ok (hexText id)
  octet : content[5]? = some (UInt8.ofNat alg)

/-- One part of a key: the unlocked object and its public counterpart. -/
theorem part_halves {S : BlockCiphers} {H : Digest} (hH : DigestOk H) {supported : Nat → Prop}
    (hS : ∀ sym bl kl key, supported sym → blockOctets sym = some bl → cipherKeyOctets sym = some kl → key.length = kl → Usable S sym bl key)
    (h10 : ¬ supported 10) {fl : Nat → Nat} {good : Nat → Prop} (hg : GoodInts fl good) {pass : Bytes} {numbers : List Nat} {c : Bytes}
    (h : OpenableKey S.enc H good supported pass numbers c) {k : SecKey} (hk : parseSecKey c = .ok k) :
    Nonempty (Halves fl H c numbers ((SecObj.fromPacket k).unlock S H pass).1 (SecObj.fromPacket k).pubPart) := by
  obtain ⟨alg, sym, sp, hp, ha, hs, hc⟩ := h
  obtain ⟨k', version, created, m, priv, e1, e2, e3, e4, e5⟩ := protected_values hH hS h10 hg hp hs hc
  obtain ⟨v, a, s, t, m', priv', iv, enc, hl, kl, n, hv, ht, hal, hf, hgi, hp', hpi, hsy, hw, hd, hkl, hn, hb, ht2, rfl⟩ := hp
  subst hal hsy
  have e1' := secret_parse (fl := fl) hg hv ht hf hgi 254 (.inl rfl) sp hw iv enc hb
  rw [hk] at e1 e1'
  cases e1
  cases e1'
  simp only at e2
  obtain ⟨u1, u2, u3, _⟩ := unlock_numbers (k := ⟨mkPubKey v.toNat (beNat t) a.toNat none m', specObj s.toNat sp, s.toNat, iv, enc, _, _⟩) e2 e3 e4 e5
  have u3 := u3 ha
  have hdays : daysBytes v.toNat none = .ok [] := by
    unfold daysBytes; rw [if_neg (by omega)]
  have hcont := publicContent_wire (fl := fl) ht hdays hf (fun i hi => (hg i (hgi i hi)).2)
  have hm : m' = m ∧ version = v.toNat ∧ created = beNat t := by
    cases m' <;> cases m <;> simp only [mkPubKey] at e2 <;> cases e2 <;> exact ⟨rfl, rfl, rfl⟩
  obtain ⟨rfl, rfl, rfl⟩ := hm
  have hpp : (SecObj.fromPacket ⟨mkPubKey v.toNat (beNat t) a.toNat none m', specObj s.toNat sp, s.toNat, iv, enc, decide ((254 : UInt8) = 255), decide ((254 : UInt8) = 254)⟩).pubPart =
      mkPubKey v.toNat (beNat t) a.toNat none m' := by cases m' <;> rfl
  have hH2 : ∀ d, (H 2 d).length = 20 := hH 2 20 rfl
  have hver : (mkPubKey v.toNat (beNat t) a.toNat none m').version = v.toNat := by cases m' <;> rfl
  have halg : (mkPubKey v.toNat (beNat t) a.toNat none m').algorithm = a.toNat := by cases m' <;> rfl
  have i1 := C93_key_id fl H hH2 _ (by rw [hver]; exact hv) _ hcont
  generalize hob : SecObj.fromPacket ⟨mkPubKey v.toNat (beNat t) a.toNat none m', specObj s.toNat sp, s.toNat, iv, enc, decide ((254 : UInt8) = 255), decide ((254 : UInt8) = 254)⟩ = ob
    at u1 u2 u3 hpp e5 ⊢
  have hst : (ob.unlock S H pass).1.version = ob.version ∧ (ob.unlock S H pass).1.alg = ob.alg := by
    simp only [SecObj.unlock, e5, SecObj.store]
    split
    · split <;> exact ⟨rfl, rfl⟩
    · split
      · split <;> exact ⟨rfl, rfl⟩
      · exact ⟨rfl, rfl⟩
  have hov : ob.version = v.toNat ∧ ob.alg = a.toNat := by
    have hv1 : ob.pubPart.version = ob.version := rfl
    have ha1 : ob.pubPart.algorithm = ob.alg := rfl
    rw [← hv1, ← ha1, hpp]; exact ⟨hver, halg⟩
  have hc2 := (C71_public_octets_partial fl S H ob pass).1
  have hc2 : (ob.unlock S H pass).1.pubPart.publicContent fl = ob.pubPart.publicContent fl := hc2
  rw [hpp, hcont] at hc2
  have i2 := C93_key_id fl H hH2 (ob.unlock S H pass).1.pubPart (by
    show 4 ≤ (ob.unlock S H pass).1.version
    rw [hst.1, hov.1]; exact hv) _ hc2
  refine ⟨⟨v.toNat, beNat t, a.toNat, m', priv, _, hf, ha, e4, hpp, by rw [hst.2, hov.2], u2, u3, by rw [List.length_drop, hH2], i2, by rw [hpp]; exact i1, ?_⟩⟩
  obtain ⟨a1, a2, a3, a4, rfl⟩ : ∃ a1 a2 a3 a4, t = [a1, a2, a3, a4] := by
    match t, ht with
    | [a1, a2, a3, a4], _ => exact ⟨_, _, _, _, rfl⟩
  show some a = some (UInt8.ofNat a.toNat)
  rw [UInt8.ofNat_toNat]

theorem halves_counterpart {fl : Nat → Nat} {H : Digest} {content : Bytes} {numbers : List Nat} {s : SecObj} {p : PubKey} (h : Halves fl H content numbers s p) (L : CryptoLib) (hL : SigningPair L H numbers) :
    ∃ K V, s.signKey fl H L = .ok K ∧ p.verifyKey fl H L = .ok V ∧ Counterpart H K V ∧
      K.locked = false ∧ (K.keyId.length = 16 ∧ UpperHex K.keyId) ∧ K.alg ∈ [1, 3, 16, 17, 20] := by
  obtain ⟨v, c, a, m, priv, id, hf, ha, e4, hp, hsa, hlock, hn, hid, i2, i1, _⟩ := h
  subst hp
  obtain ⟨pub, p1, p2, p3, p4⟩ := public_numbers (v := v) (c := c) hf ha e4
  obtain ⟨s1, s2, s3⟩ := p4 L H (hL m priv e4)
  have halg : (mkPubKey v c a none m).algorithm = a := by cases m <;> rfl
  refine ⟨_, _, by simp only [SecObj.signKey, hn, i2, except_bind_ok, except_pure, hlock]; rfl, by simp only [PubKey.verifyKey, p1, i1, except_bind_ok, except_pure]; rfl, ?_, rfl, ?_, ?_⟩
  · refine ⟨rfl, by simp only [hsa, halg], ?_, ?_, ?_, ?_⟩
    · simp only [CryptoLib.prims, p2]
    · simp only [hsa]; exact s1
    · simp only [hsa]; exact s2
    · simp only [hsa]; exact fun h => ⟨p3 h, s3 h⟩
  · refine ⟨?_, ?_⟩
    · simp only [← hexOf_eq_hexText, hexOf_length, hid]
    · simp only [← hexOf_eq_hexText]
      exact hexOf_upper _
  · simp only [hsa]
    cases m with
    | rsa n e => rcases hf with h | h | h <;> first | exact absurd h ha | simp [h]
    | dsa p q g y => simp [show a = 17 from hf]
    | elgamal p g y => rcases hf with h | h <;> simp [h]

/-- A secret key file: what is read from it and unlocked, and what is read from the exported file. -/
theorem file_halves (magic : Bytes → Str) (fl : Nat → Nat) (hl : LogOnCounts fl) (good : Nat → Prop)
    (hgood : ∀ i, good i → LogRoom fl i ∧ (0 < i → fl i = Nat.log2 i)) (F : HeaderFormat → Prop) (S : BlockCiphers) (H : Digest) (hH : DigestOk H)
    (supported : Nat → Prop) (h10 : ¬ supported 10)
    (hS : ∀ sym bl kl key, supported sym → blockOctets sym = some bl → cipherKeyOctets sym = some kl → key.length = kl → Usable S sym bl key)
    (Q : Bytes → List Nat → Prop) (pass data : Bytes)
    (hdata : KeyFileOf 5 7 (fun c => ∃ numbers, OpenableKey S.enc H good supported pass numbers c ∧ Q c numbers) magic F good data)
    (expires : Nat → Py Unit) (hexp : ∀ i, expires i = .ok ()) :
    ∃ k ring ring' pub data' k' keys, readKey magic data = .ok k ∧ k.secRing = some ring ∧ ring.unlock S H pass = (ring', .ok ()) ∧
      k.toPublic expires = .ok pub ∧ pub.octets fl none = .ok data' ∧ readKey magic data' = .ok k' ∧ k'.pubKeys = some keys ∧
      List.Forall₂ (fun s p => ∃ content numbers, Q content numbers ∧ Nonempty (Halves fl H content numbers s p)) (SecRing.parts ring') keys := by
  have hdata0 : KeyFileOf 5 7 (fun c => ∃ numbers, OpenableKey S.enc H good supported pass numbers c) magic F good data :=
    file_mono (fun c ⟨n, hn, _⟩ => ⟨n, hn⟩) hdata
  have hsec := file_mono (openable_wire hH h10 hS) hdata0
  obtain ⟨k, ring, rs, r1, r2, r3, r4⟩ := ring_of_file (magic := magic) hl hgood hsec
  obtain ⟨k0, ring0, ring', _, q1, q2, q3, _⟩ := C110_unlock_file_partial magic fl hl good hgood F S H hH supported h10 hS pass data hdata0
  rw [r1] at q1; cases q1
  rw [r2] at q2; cases q2
  obtain ⟨rs', es, m1, m2, rfl⟩ := file_packets (by decide) hdata
  obtain ⟨es', m3, m4⟩ := C10_parse_concat_partial rs' fun r hr => (m1 r hr).1
  rw [m2] at m3
  cases m3
  rw [r3] at m4
  cases m4
  obtain ⟨pub, hpub⟩ := toPublic_ok k expires fun i _ => hexp i
  obtain ⟨data', k', d1, d2, d3⟩ := exported_parts hl hgood hsec r1 hpub r2
  refine ⟨k, ring, ring', pub, data', k', _, r1, r2, q3, hpub, d1, d2, d3, ?_⟩
  have hparts : SecRing.parts ring' = (SecRing.parts ring).map (fun o => (o.unlock S H pass).1) := by
    have hu : (ring.each fun o => o.unlock S H pass).2 = .ok () := by
      have : ring.unlock S H pass = ring.each fun o => o.unlock S H pass := rfl
      rw [← this, q3]
    obtain ⟨ring'', e1, e2⟩ := each_all (fun o => o.unlock S H pass) ring (each_ok _ ring hu).2
    have : ring.unlock S H pass = ring.each fun o => o.unlock S H pass := rfl
    rw [← this, q3] at e1
    cases e1
    exact e2
  rw [hparts, List.forall₂_map_left_iff, List.forall₂_map_right_iff, List.forall₂_same]
  intro ob hob
  obtain ⟨r, hr, key, hkey, rfl⟩ := forall₂_mem_right r4 ob hob
  obtain ⟨hr1, hr2⟩ := List.mem_filter.mp hr
  obtain ⟨numbers, hn, hpair⟩ := (m1 r hr1).2 (by simpa using hr2)
  exact ⟨_, numbers, hpair, part_halves hH hS h10 hgood hn hkey⟩

/-- C111 (part that holds): from the two files to a verified signature.  Someone has a secret key file, protected by `pass` as in C110, whose numbers are key pairs of the
cryptographic library.  The key is read, and its public half is written to a second file; someone else reads that.  After unlocking, the n-th part (primary key or subkey) of
the secret key and the n-th part of the public key belong together: whatever the one signs - keys, user ids, images, documents - the other verifies; and a literal message
signed with the one (if not an ElGamal key for encryption only), written and read again is accepted by the other.  (For RSA: if the signature string does not begin with a
zero octet, C28.) -/
theorem C111_sign_verify_partial (magic : Bytes → Str) (fl : Nat → Nat) (hl : LogOnCounts fl) (good : Nat → Prop)
    (hgood : ∀ i, good i → LogRoom fl i ∧ (0 < i → fl i = Nat.log2 i)) (F : HeaderFormat → Prop) (S : BlockCiphers) (H : Digest) (hH : DigestOk H)
    (supported : Nat → Prop) (h10 : ¬ supported 10)
    (hS : ∀ sym bl kl key, supported sym → blockOctets sym = some bl → cipherKeyOctets sym = some kl → key.length = kl → Usable S sym bl key)
    (L : CryptoLib) (pass data : Bytes)
    (hdata : KeyFileOf 5 7 (fun c => ∃ numbers, OpenableKey S.enc H good supported pass numbers c ∧ SigningPair L H numbers) magic F good data)
    (expires : Nat → Py Unit) (hexp : ∀ i, expires i = .ok ()) (o : Nat → Py Bytes) (accept : RawPacket → Py Unit) :
    ∃ k ring ring' pub data' k' keys, readKey magic data = .ok k ∧ k.secRing = some ring ∧ ring.unlock S H pass = (ring', .ok ()) ∧
      k.toPublic expires = .ok pub ∧ pub.octets fl none = .ok data' ∧ readKey magic data' = .ok k' ∧ k'.pubKeys = some keys ∧
      List.Forall₂ (fun (s : SecObj) (p : PubKey) => ∃ K V, s.signKey fl H L = .ok K ∧ p.verifyKey fl H L = .ok V ∧
          (∀ i, (∀ b, i ≠ Item.raw b) → ∀ t h now subs sig, (K.alg = 1 ∨ K.alg = 3 → FullLength fl H K i t h subs now) →
            signItem fl H K i 4 t h subs now = .ok sig → verifyItem fl H V i sig = .ok true) ∧
          ∀ m d, SinglePacket m → LiteralData m d → d.length < 2 ^ 32 - 2000 → K.alg ≠ 16 → ∀ prefs t h now, t < 256 → h ∈ digests → now < 2 ^ 32 →
            (K.alg = 1 ∨ K.alg = 3 → ∀ d, m.signable t = .ok d → FullLength fl H K (.document d) t h [] now) →
            (∀ d values, signHash fl K.prims K.alg h d = .ok values → ∀ n ∈ values, LogRoom fl n) →
            ∃ sig w, m.sign fl H K prefs 4 t (some h) true now = .ok (signedMessage [sig] m) ∧ (signedMessage [sig] m).bytes fl o = .ok w ∧
              readMessage accept w = .ok (signedMessage [sig] m) ∧ verifyDocument fl H V m sig = .ok true)
        (SecRing.parts ring') keys := by
  obtain ⟨k, ring, ring', pub, data', k', keys, r1, r2, r3, r4, r5, r6, r7, r8⟩ :=
    file_halves magic fl hl good hgood F S H hH supported h10 hS (fun _ => SigningPair L H) pass data hdata expires hexp
  refine ⟨k, ring, ring', pub, data', k', keys, r1, r2, r3, r4, r5, r6, r7, r8.imp ?_⟩
  rintro ob p ⟨_, numbers, hpair, ⟨halves⟩⟩
  obtain ⟨K, V, c1, c2, c3, c4, c5, c7⟩ := halves_counterpart halves L hpair
  refine ⟨K, V, c1, c2, fun i hi t h now subs sig hf hs => counterpart_item hH c3 hi hf hs, ?_⟩
  intro m d hm hd hlen h16 prefs t h now ht hh hnow hf hroom
  obtain ⟨sig, hs⟩ := C95_signs fl H m d hd K c4 (by
    simp only [List.mem_cons, List.not_mem_nil, or_false] at c7 ⊢; tauto) c5 prefs t h now ht hh true
  obtain ⟨sig', w, e1, e2, e3, e4⟩ := counterpart_message hl hH c3 o accept hm hd hlen prefs c5 hnow hf hroom hs
  have e0 : Msg.signed [(.new, sig)] (some m) true = signedMessage [sig] m := rfl
  rw [e0] at hs e1 e2 e3
  have : sig = sig' := by
    simp only [signedMessage, List.map_cons, List.map_nil] at e1
    cases e1
    rfl
  subst this
  exact ⟨sig, w, hs, e2, e3, e4⟩

/-- A toy library: a signature is the beginning of the digest behind an octet 1. -/
def toyLib : CryptoLib where
  rsaSign _ _ d := 1 :: d.take 32
  rsaVerify _ _ d s := s == 1 :: d.take 32
  emsa _ _ d := d
  elgSign _ d := (beNat d, d.length)
  elgVerify _ d v := v == [beNat d, d.length]
  dsaSign _ d := (d, d + 1)
  dsaVerify _ d v := v == [d, d + 1]
  rsaEncrypt _ b := b
  rsaDecrypt _ b := some b

theorem toyLib_pair (H : Digest) (numbers : List Nat) : SigningPair toyLib H numbers := by
  intro m priv _
  cases m with
  | rsa n e => exact fun h x _ => beq_self_eq_true _
  | dsa p q g y => exact fun d => beq_self_eq_true _
  | elgamal p g y => exact fun d => beq_self_eq_true _

theorem six_numbers (o : SecObj) (hl : o.locked = false) : ∀ l, o.keyNumbers = .ok l → l.length = 6 → o.alg = 1 ∨ o.alg = 3 := by
  have len : ∀ (l : List (Option Nat)) (r : List Nat), longs l = .ok r → r.length = l.length := by
    intro l
    induction l with
    | nil => intro r h; cases h; rfl
    | cons a l ih =>
      intro r h
      cases a with
      | none => cases h
      | some a =>
        obtain ⟨x, hx, h⟩ := except_bind_eq_ok.mp h
        cases h
        rw [List.length_cons, List.length_cons, ih x hx]
  intro l h h6
  simp only [SecObj.keyNumbers, hl, Bool.false_eq_true, if_false] at h
  split at h
  · have := len _ _ h; simp [h6] at this
  · split at h
    · have := len _ _ h; simp [h6] at this
    · split at h
      · assumption
      · cases h

/-- The example file of C110: its primary key signs a text, and the key read from the exported file accepts it. -/
example (magic : Bytes → Str) (accept : RawPacket → Py Unit) : ∃ (k : TKey) (ring ring' : SecRing) (pub k' : TKey) (data' : Bytes) (p : PubKey) (K V : SignKey) (sig : Sig) (w : Bytes),
    readKey magic (exOpenFile .old) = .ok k ∧ k.secRing = some ring ∧ ring.unlock exCiphers exDigest [104, 105] = (ring', .ok ()) ∧
    k.toPublic (fun _ => .ok ()) = .ok pub ∧ pub.octets Nat.log2 none = .ok data' ∧ readKey magic data' = .ok k' ∧ (∃ ks, k'.pubKeys = some (p :: ks)) ∧
    ring'.main.signKey Nat.log2 exDigest toyLib = .ok K ∧ p.verifyKey Nat.log2 exDigest toyLib = .ok V ∧
    exText.sign Nat.log2 exDigest K (.ok .default) 4 0 (some 2) true 1000 = .ok (signedMessage [sig] exText) ∧
    (signedMessage [sig] exText).bytes Nat.log2 (fun _ => .ok []) = .ok w ∧ verifyDocument Nat.log2 exDigest V exText sig = .ok true := by
  obtain ⟨k, ring, ring', pub, data', k', keys, h1, h2, h3, h4, h5, h6, h7, h8⟩ := C111_sign_verify_partial magic Nat.log2 (fun _ _ _ => rfl) (· < 4096) exGood (· = .old) exCiphers exDigest
    exDigest_ok (· = 7) (by decide) exCiphers_work toyLib [104, 105] (exOpenFile .old) (file_mono (fun c ⟨n, hn⟩ => ⟨n, hn, toyLib_pair _ _⟩) (exOpenFile_ok magic .old))
    (fun _ => .ok ()) (fun _ => rfl) (fun _ => .ok []) accept
  obtain ⟨m0, subs⟩ := ring'
  cases keys with
  | nil => cases h8
  | cons p ks =>
    obtain ⟨⟨K, V, k1, k2, _, k4⟩, _⟩ := List.forall₂_cons.mp h8
    obtain ⟨numbers, n1, k1'⟩ := except_bind_eq_ok.mp k1
    obtain ⟨id, _, k1'⟩ := except_bind_eq_ok.mp k1'
    have halg : K.alg = 1 ∨ K.alg = 3 := by
      obtain ⟨k0, ring0, ring0', rs, g1, g2, g3, g4, g5⟩ := C110_unlock_file_partial magic Nat.log2 (fun _ _ _ => rfl) (· < 4096) exGood (· = .old) exCiphers exDigest exDigest_ok (· = 7)
        (by decide) exCiphers_work [104, 105] (exOpenFile .old) (exOpenFile_ok magic .old)
      rw [h1] at g1; cases g1
      rw [h2] at g2; cases g2
      rw [h3] at g3; cases g3
      rw [exOpenFile_packets] at g4
      cases g4
      rw [List.filter_cons_of_pos (by decide)] at g5
      obtain ⟨g7, _⟩ := List.forall₂_cons.mp g5
      have g8 := g7.2.2 _ ⟨_, _, _, exOpen_ok 1 (.inl rfl) 2753 61 53 38 (by decide), by decide, rfl, trivial⟩ _ (fun l => .ok l)
      have hK : K.alg = m0.alg := by cases k1'; rfl
      rw [hK]
      have := six_numbers m0 g7.1
      have hlk : m0.locked = false := g7.1
      simp only [SecObj.sign, hlk, Bool.false_eq_true, if_false] at g8
      obtain ⟨l, g9, g10⟩ := except_bind_eq_ok.mp g8
      cases g10
      exact this _ g9 rfl
    have hP : K.prims = toyLib.prims numbers := by cases k1'; rfl
    have hroom : ∀ d values, signHash Nat.log2 K.prims K.alg 2 d = .ok values → ∀ n ∈ values, LogRoom Nat.log2 n := by
      intro d values hv n hn
      rw [signHash, if_pos halg] at hv
      cases hv
      rw [List.mem_singleton] at hn
      rw [hP] at hn
      have hlt : n < 256 ^ 33 := by
        rw [hn]
        refine Nat.lt_of_lt_of_le (beNat_lt (1 :: d.take 32)) (Nat.pow_le_pow_right (by decide) ?_)
        rw [List.length_cons, List.length_take]; omega
      exact logRoom_of_exact rfl (Nat.lt_of_lt_of_le hlt (by rw [show (256 : Nat) = 2 ^ 8 by rfl, ← Nat.pow_mul]; exact Nat.pow_le_pow_right (by decide) (by omega)))
    obtain ⟨sig, w, e1, e2, _, e4⟩ := k4 exText _ (.text _ _ _ (by decide) (by decide) (by decide)) (.text _ _ _) (by decide) (by rcases halg with h | h <;> rw [h] <;> decide) (.ok .default) 0 2 1000 (by decide) (by decide)
      (by decide) (fun _ d hd a b _ _ => ⟨1, _, by rw [hP]; rfl, by decide⟩) hroom
    exact ⟨k, ring, _, pub, k', data', p, K, V, sig, w, h1, h2, h3, h4, h5, h6, ⟨ks, h7⟩, k1, k2, e1, e2, e4⟩

/-! ### C112 -/

theorem forall₂_at {α β : Type} {R : α → β → Prop} {a : List α} {b : List β} (h : List.Forall₂ R a b) : ∀ (n : Nat) {x y}, a[n]? = some x → b[n]? = some y → R x y := by
  induction h with
  | nil => intro n x y hx; simp at hx
  | cons h1 _ ih =>
    intro n x y hx hy
    cases n with
    | zero => cases hx; cases hy; exact h1
    | succ n => exact ih n (by simpa using hx) (by simpa using hy)

/-- What two people hold belongs together. -/
theorem held_halves {magic : Bytes → Str} {fl : Nat → Nat} (hl : LogOnCounts fl) {good : Nat → Prop}
    (hgood : ∀ i, good i → LogRoom fl i ∧ (0 < i → fl i = Nat.log2 i)) {F : HeaderFormat → Prop} {S : BlockCiphers} {H : Digest} (hH : DigestOk H)
    {supported : Nat → Prop} (h10 : ¬ supported 10)
    (hS : ∀ sym bl kl key, supported sym → blockOctets sym = some bl → cipherKeyOctets sym = some kl → key.length = kl → Usable S sym bl key)
    {Q : Bytes → List Nat → Prop} {pass data : Bytes}
    (hdata : KeyFileOf 5 7 (fun c => ∃ numbers, OpenableKey S.enc H good supported pass numbers c ∧ Q c numbers) magic F good data)
    {expires : Nat → Py Unit} (hexp : ∀ i, expires i = .ok ()) {s : SecObj} {p : PubKey} (h : HeldBy magic fl S H expires pass data s p) :
    ∃ content numbers, Q content numbers ∧ Nonempty (Halves fl H content numbers s p) := by
  obtain ⟨k, ring, ring', pub, data', k', keys, r1, r2, r3, r4, r5, r6, r7, r8⟩ :=
    file_halves magic fl hl good hgood F S H hH supported h10 hS Q pass data hdata expires hexp
  obtain ⟨k1, ring1, ring1', pub1, data1, k1', keys1, n, q1, q2, q3, q4, q5, q6, q7, q8, q9⟩ := h
  rw [r1] at q1; cases q1
  rw [r2] at q2; cases q2
  rw [r3] at q3; cases q3
  rw [r4] at q4; cases q4
  rw [r5] at q5; cases q5
  rw [r6] at q6; cases q6
  rw [r7] at q7; cases q7
  exact forall₂_at r8 n q8 q9

/-- An RSA key that is held, as a pair of C81. -/
theorem halves_pair {fl : Nat → Nat} {H : Digest} {content : Bytes} {numbers : List Nat} {s : SecObj} {p : PubKey} (h : Halves fl H content numbers s p) (h1 : p.algorithm = 1)
    (L : CryptoLib) (hL : EncryptingPair L numbers) (pad : Bytes) (single : Bytes → Py (Nat × Bytes)) (inverse : Nat → Nat → Nat) :
    ∃ r : RsaPair, r.Works ∧ p.recipient fl H L pad = .ok r.recipient ∧ s.holder L single inverse = .ok (r.holder single) ∧ s.locked = false ∧
      ∃ n e, p.modulus = some n ∧ p.exponent = some e ∧ s.keyNumbers = .ok numbers ∧ r.enc = L.rsaEncrypt [n, e] ∧ r.dec = L.rsaDecrypt numbers ∧ r.k = Nat.log2 n / 8 + 1 := by
  obtain ⟨v, c, a, m, priv, id, hf, ha, e4, hp, hsa, hlock, hn, hid, i2, i1, _⟩ := h
  subst hp
  have halg : (mkPubKey v c a none m).algorithm = a := by cases m <;> rfl
  rw [halg] at h1
  subst h1
  cases e4 with
  | rsa n e d p q u =>
    refine ⟨⟨id, L.rsaEncrypt [n, e], L.rsaDecrypt [n, e, d, p, q, u], Nat.log2 n / 8 + 1⟩, ⟨hid, fun b hb => (hL n e d p q u rfl b hb).1, fun b hb => (hL n e d p q u rfl b hb).2⟩,
      ?_, ?_, hlock, n, e, rfl, rfl, hn, rfl, rfl, rfl⟩
    · simp only [PubKey.recipient, i1, except_bind_ok]
      rfl
    · simp only [SecObj.holder, hn, except_bind_ok, hsa]
      rfl
  | dsa => cases hf
  | elgamal => rcases hf with h | h <;> cases h

theorem mapM_map_ok {α β γ : Type} {f : α → Py β} {g : γ → α} {h : γ → β} : ∀ {l : List γ}, (∀ x ∈ l, f (g x) = .ok (h x)) → (l.map g).mapM f = .ok (l.map h)
  | [], _ => rfl
  | x :: l, hx => by
    rw [List.map_cons, List.mapM_cons, hx x List.mem_cons_self, except_bind_ok, mapM_map_ok fun y hy => hx y (List.mem_cons_of_mem _ hy)]
    rfl

/-- C112 (part that holds): any number of people have given out the public halves of their secret key files, as in C111. Someone who has read these encrypts a message to some
parts of them (RSA keys), named or hidden, and sends it. Each of the people, having unlocked the secret key with the passphrase, opens what arrives and has the message.
(If no ciphertext begins with a zero octet, and each key refuses the ciphertexts made for the recipients before it.) -/
theorem C112_encrypt_open_partial (magic : Bytes → Str) (fl : Nat → Nat) (hl : LogOnCounts fl) (good : Nat → Prop)
    (hgood : ∀ i, good i → LogRoom fl i ∧ (0 < i → fl i = Nat.log2 i)) (F : HeaderFormat → Prop) (S : BlockCiphers) (H : Digest) (hH : DigestOk H)
    (supported : Nat → Prop) (h10 : ¬ supported 10)
    (hS : ∀ sym bl kl key, supported sym → blockOctets sym = some bl → cipherKeyOctets sym = some kl → key.length = kl → Usable S sym bl key)
    (L : CryptoLib) (expires : Nat → Py Unit) (hexp : ∀ i, expires i = .ok ())
    (o : Nat → Py Bytes) (op : Nat → Bytes → Bytes → Bytes → Py Bytes) (accept : RawPacket → Py Unit) (hacc : ∀ p, p.type = 19 → accept p = .ok ())
    (m : Msg) (hm : Sendable fl m) (rs : List RawPacket) (ps : List MPacket)
    (hps : m.toPackets = .ok ps) (hrs : ps.mapM (MPacket.raw fl o) = .ok rs) (hex : ∀ r ∈ rs, Expressible r)
    (sym bl : Nat) (hsym : sym < 256) (sk iv : Bytes) (us : Usable S sym bl sk) (hiv : iv.length = bl)
    (w : Bytes) (hw : m.bytes fl o = .ok w) (hwl : w.length + bl + 25 < 2 ^ 32)
    (named hidden : List (SecObj × PubKey)) (hne : named ≠ [])
    (hheld : ∀ x ∈ named ++ hidden, x.2.algorithm = 1 ∧ ∃ pass data,
      KeyFileOf 5 7 (fun c => ∃ numbers, OpenableKey S.enc H good supported pass numbers c ∧ EncryptingPair L numbers) magic F good data ∧
      HeldBy magic fl S H expires pass data x.1 x.2)
    (block : Bytes) (hblock : SessionBlock (UInt8.ofNat sym) sk block)
    (hroom : ∀ x ∈ named ++ hidden, ∀ n, x.2.modulus = some n → sk.length + 14 ≤ Nat.log2 n / 8 + 1)
    (hzero : ∀ x ∈ named ++ hidden, ∀ n e, x.2.modulus = some n → x.2.exponent = some e → ∃ y b, L.rsaEncrypt [n, e] block = y :: b ∧ y ≠ 0)
    (hfl : ∀ x ∈ named ++ hidden, ∀ n e, x.2.modulus = some n → x.2.exponent = some e → OctetLog fl (beNat (L.rsaEncrypt [n, e] block)))
    (hother : (named ++ hidden).Pairwise fun a b => ∀ n e n' numbers, a.2.modulus = some n → a.2.exponent = some e → b.2.modulus = some n' → b.1.keyNumbers = .ok numbers →
      Nat.log2 n / 8 ≠ Nat.log2 n' / 8 ∨ L.rsaDecrypt numbers (L.rsaEncrypt [n, e] block) = none)
    (pad : Bytes) (single : Bytes → Py (Nat × Bytes)) (inverse : Nat → Nat → Nat) :
    ∃ rn rh e data, (named.map (·.2)).mapM (PubKey.recipient fl H L pad) = .ok rn ∧ (hidden.map (·.2)).mapM (PubKey.recipient fl H L pad) = .ok rh ∧
      publicKeyEncrypt S H fl o m sym none (some rn) (some rh) sk iv true = .ok e ∧ e.bytes fl o = .ok data ∧ readMessage accept data = .ok e ∧
      ∀ x ∈ named ++ hidden, ∃ mat, x.1.holder L single inverse = .ok mat ∧ e.getMessage S H op accept (.secretKey x.1.locked mat.open_) = .ok m := by
  have hall : ∀ x ∈ named ++ hidden, ∃ r : RsaPair, r.Works ∧ x.2.recipient fl H L pad = .ok r.recipient ∧ x.1.holder L single inverse = .ok (r.holder single) ∧ x.1.locked = false ∧
      ∃ numbers n e, x.2.modulus = some n ∧ x.2.exponent = some e ∧ x.1.keyNumbers = .ok numbers ∧ r.enc = L.rsaEncrypt [n, e] ∧ r.dec = L.rsaDecrypt numbers ∧
        r.k = Nat.log2 n / 8 + 1 := by
    intro x hx
    obtain ⟨h1, pass, data, hd, hh⟩ := hheld x hx
    obtain ⟨_, numbers, hQ, ⟨hv⟩⟩ := held_halves (Q := fun _ => EncryptingPair L) hl hgood hH h10 hS hd hexp hh
    obtain ⟨r, a1, a2, a3, a4, n, e, a5⟩ := halves_pair hv h1 L hQ pad single inverse
    exact ⟨r, a1, a2, a3, a4, numbers, n, e, a5⟩
  haveI : Nonempty RsaPair := ⟨⟨[], id, some, 0⟩⟩
  choose! f hf using hall
  have hfm : ∀ l : List (SecObj × PubKey), (∀ x ∈ l, x ∈ named ++ hidden) →
      (l.map (·.2)).mapM (PubKey.recipient fl H L pad) = .ok ((l.map f).map (·.recipient)) := by
    intro l hl'
    rw [List.map_map]
    exact mapM_map_ok fun x hx => (hf x (hl' x hx)).2.1
  have hmem : ∀ r ∈ named.map f ++ hidden.map f, ∃ x ∈ named ++ hidden, f x = r := by
    intro r hr
    rw [← List.map_append] at hr
    exact List.mem_map.mp hr
  obtain ⟨e, data, g1, g2, g3, g4⟩ := C81_every_recipient_opens_partial S H fl hl o op accept hacc (fun d => hH 2 20 rfl d) m hm rs ps hps hrs hex sym bl hsym sk iv us hiv w hw hwl
    (named.map f) (hidden.map f) (by simpa using hne)
    (by rintro r hr; obtain ⟨x, hx, rfl⟩ := hmem r hr; exact (hf x hx).1)
    (by
      rintro r hr; obtain ⟨x, hx, rfl⟩ := hmem r hr
      obtain ⟨_, _, _, _, numbers, n, e, b1, b2, b3, b4, b5, b6⟩ := hf x hx
      rw [b6]; exact hroom x hx n b1)
    block hblock
    (by
      rintro r hr; obtain ⟨x, hx, rfl⟩ := hmem r hr
      obtain ⟨_, _, _, _, numbers, n, e, b1, b2, b3, b4, b5, b6⟩ := hf x hx
      rw [b4]; exact hzero x hx n e b1 b2)
    (by
      rintro r hr; obtain ⟨x, hx, rfl⟩ := hmem r hr
      obtain ⟨_, _, _, _, numbers, n, e, b1, b2, b3, b4, b5, b6⟩ := hf x hx
      rw [b4]; exact hfl x hx n e b1 b2)
    (by
      rw [← List.map_append, List.pairwise_map]
      refine List.Pairwise.imp_of_mem ?_ hother
      intro a b ha hb hab
      obtain ⟨_, _, _, _, numbers, n, e, b1, b2, b3, b4, b5, b6⟩ := hf a ha
      obtain ⟨_, _, _, _, numbers', n', e', c1, c2, c3, c4, c5, c6⟩ := hf b hb
      rw [b6, c6, b4, c5]
      rcases hab n e n' numbers' b1 b2 c1 c3 with h | h
      · exact .inl (by omega)
      · exact .inr h)
  refine ⟨_, _, e, data, hfm named (fun x hx => List.mem_append_left _ hx), hfm hidden (fun x hx => List.mem_append_right _ hx), g1, g2, g3, fun x hx => ?_⟩
  obtain ⟨_, _, b3, b4, _⟩ := hf x hx
  refine ⟨_, b3, ?_⟩
  rw [b4]
  exact g4 (f x) (by rw [← List.map_append]; exact List.mem_map_of_mem hx) single

/-- C112 (ElGamal): in the same way with one ElGamal key as recipient. (That anybody else could open it too is C61.) -/
theorem C112_elgamal_partial (magic : Bytes → Str) (fl : Nat → Nat) (hl : LogOnCounts fl) (good : Nat → Prop)
    (hgood : ∀ i, good i → LogRoom fl i ∧ (0 < i → fl i = Nat.log2 i)) (F : HeaderFormat → Prop) (S : BlockCiphers) (H : Digest) (hH : DigestOk H)
    (supported : Nat → Prop) (h10 : ¬ supported 10)
    (hS : ∀ sym bl kl key, supported sym → blockOctets sym = some bl → cipherKeyOctets sym = some kl → key.length = kl → Usable S sym bl key)
    (L : CryptoLib) (expires : Nat → Py Unit) (hexp : ∀ i, expires i = .ok ())
    (o : Nat → Py Bytes) (op : Nat → Bytes → Bytes → Bytes → Py Bytes) (accept : RawPacket → Py Unit) (hacc : ∀ p, p.type = 19 → accept p = .ok ())
    (m : Msg) (hm : Sendable fl m) (rs : List RawPacket) (ps : List MPacket)
    (hps : m.toPackets = .ok ps) (hrs : ps.mapM (MPacket.raw fl o) = .ok rs) (hex : ∀ r ∈ rs, Expressible r)
    (sym bl : Nat) (hsym : sym < 256) (sk iv : Bytes) (us : Usable S sym bl sk) (hiv : iv.length = bl)
    (w : Bytes) (hw : m.bytes fl o = .ok w) (hwl : w.length + bl + 25 < 2 ^ 32)
    (s : SecObj) (p : PubKey) (h16 : p.algorithm = 16) (pass data : Bytes)
    (hdata : KeyFileOf 5 7 (fun c => ∃ numbers, OpenableKey S.enc H good supported pass numbers c) magic F good data)
    (hheld : HeldBy magic fl S H expires pass data s p)
    (prime : Nat) (hprime : p.prime = some prime) (hp : 1 < prime) (hfl : ∀ i, 0 < i → i < prime → LogRoom fl i)
    (inverse : Nat → Nat → Nat) (hinv : InverseOk inverse prime) (pad : Bytes) (hpad : ∀ x ∈ pad, x ≠ 0)
    (hsk : sk.length + 14 ≤ byteLen prime) (hpl : pad.length = byteLen prime - (sk.length + 3) - 3) (single : Bytes → Py (Nat × Bytes)) :
    ∃ r e data mat, p.recipient fl H L pad = .ok r ∧ publicKeyEncrypt S H fl o m sym (some r) none none sk iv true = .ok e ∧
      e.bytes fl o = .ok data ∧ readMessage accept data = .ok e ∧ s.holder L single inverse = .ok mat ∧
      e.getMessage S H op accept (.secretKey s.locked mat.open_) = .ok m := by
  obtain ⟨_, numbers, _, ⟨hv⟩⟩ := held_halves (Q := fun _ _ => True) hl hgood hH h10 hS (file_mono (fun c ⟨n, hn⟩ => ⟨n, hn, trivial⟩) hdata) hexp hheld
  obtain ⟨v, c, a, mat, priv, id, hf, ha, e4, hpm, hsa, hlock, hn, hid, i2, i1, _⟩ := hv
  subst hpm
  have halg : (mkPubKey v c a none mat).algorithm = a := by cases mat <;> rfl
  rw [halg] at h16
  subst h16
  cases e4 with
  | rsa => rcases hf with h | h | h <;> cases h
  | dsa => cases hf
  | elgamal prime g y x =>
    cases hprime
    obtain ⟨e, data, r1, r2, r3, r4⟩ := C81_elgamal_opens_partial S H fl hl o op accept hacc (fun d => hH 2 20 rfl d) m hm rs ps hps hrs hex sym bl hsym sk iv us hiv w hw hwl
      id hid ⟨prime, g, y, x⟩ hp hfl inverse hinv pad hpad hsk hpl
    refine ⟨⟨hexText id, 16, .elgamal ⟨prime, g, y, 0⟩ pad⟩, e, data, .elgamal ⟨prime, g, y, x⟩ inverse, ?_, ?_, r2, r3, ?_, ?_⟩
    · simp only [PubKey.recipient, i1, except_bind_ok]
      rfl
    · rw [← r1]; rfl
    · simp only [SecObj.holder, hn, except_bind_ok, hsa]
      rfl
    · rw [hlock]; exact r4

/-- C112 (ElGamal and RSA): in the same way if one ElGamal key is named before all the RSA keys. -/
theorem C112_elgamal_first_partial (magic : Bytes → Str) (fl : Nat → Nat) (hl : LogOnCounts fl) (good : Nat → Prop)
    (hgood : ∀ i, good i → LogRoom fl i ∧ (0 < i → fl i = Nat.log2 i)) (F : HeaderFormat → Prop) (S : BlockCiphers) (H : Digest) (hH : DigestOk H)
    (supported : Nat → Prop) (h10 : ¬ supported 10)
    (hS : ∀ sym bl kl key, supported sym → blockOctets sym = some bl → cipherKeyOctets sym = some kl → key.length = kl → Usable S sym bl key)
    (L : CryptoLib) (expires : Nat → Py Unit) (hexp : ∀ i, expires i = .ok ())
    (o : Nat → Py Bytes) (op : Nat → Bytes → Bytes → Bytes → Py Bytes) (accept : RawPacket → Py Unit) (hacc : ∀ p, p.type = 19 → accept p = .ok ())
    (m : Msg) (hm : Sendable fl m) (rs : List RawPacket) (ps : List MPacket)
    (hps : m.toPackets = .ok ps) (hrs : ps.mapM (MPacket.raw fl o) = .ok rs) (hex : ∀ r ∈ rs, Expressible r)
    (sym bl : Nat) (hsym : sym < 256) (sk iv : Bytes) (us : Usable S sym bl sk) (hiv : iv.length = bl)
    (w : Bytes) (hw : m.bytes fl o = .ok w) (hwl : w.length + bl + 25 < 2 ^ 32)
    (named hidden : List (SecObj × PubKey))
    (s : SecObj) (p : PubKey) (h16 : p.algorithm = 16) (pass data : Bytes)
    (hdata : KeyFileOf 5 7 (fun c => ∃ numbers, OpenableKey S.enc H good supported pass numbers c) magic F good data)
    (hheldE : HeldBy magic fl S H expires pass data s p)
    (prime : Nat) (hprime : p.prime = some prime) (hp : 1 < prime) (hflE : ∀ i, 0 < i → i < prime → LogRoom fl i)
    (hheld : ∀ x ∈ named ++ hidden, x.2.algorithm = 1 ∧ ∃ pass data,
      KeyFileOf 5 7 (fun c => ∃ numbers, OpenableKey S.enc H good supported pass numbers c ∧ EncryptingPair L numbers) magic F good data ∧
      HeldBy magic fl S H expires pass data x.1 x.2)
    (block : Bytes) (hblock : SessionBlock (UInt8.ofNat sym) sk block)
    (hroom : ∀ x ∈ named ++ hidden, ∀ n, x.2.modulus = some n → sk.length + 14 ≤ Nat.log2 n / 8 + 1)
    (hzero : ∀ x ∈ named ++ hidden, ∀ n e, x.2.modulus = some n → x.2.exponent = some e → ∃ y b, L.rsaEncrypt [n, e] block = y :: b ∧ y ≠ 0)
    (hfl : ∀ x ∈ named ++ hidden, ∀ n e, x.2.modulus = some n → x.2.exponent = some e → OctetLog fl (beNat (L.rsaEncrypt [n, e] block)))
    (hother : (named ++ hidden).Pairwise fun a b => ∀ n e n' numbers, a.2.modulus = some n → a.2.exponent = some e → b.2.modulus = some n' → b.1.keyNumbers = .ok numbers →
      Nat.log2 n / 8 ≠ Nat.log2 n' / 8 ∨ L.rsaDecrypt numbers (L.rsaEncrypt [n, e] block) = none)
    (inverse : Nat → Nat → Nat) (hinv : InverseOk inverse prime) (pad : Bytes) (hpad : ∀ x ∈ pad, x ≠ 0)
    (hsk : sk.length + 14 ≤ byteLen prime) (hpl : pad.length = byteLen prime - (sk.length + 3) - 3) (single : Bytes → Py (Nat × Bytes)) :
    ∃ rn rh e data, (p :: named.map (·.2)).mapM (PubKey.recipient fl H L pad) = .ok rn ∧ (hidden.map (·.2)).mapM (PubKey.recipient fl H L pad) = .ok rh ∧
      publicKeyEncrypt S H fl o m sym none (some rn) (some rh) sk iv true = .ok e ∧ e.bytes fl o = .ok data ∧ readMessage accept data = .ok e ∧
      ∀ x ∈ (s, p) :: named ++ hidden, ∃ mat, x.1.holder L single inverse = .ok mat ∧ e.getMessage S H op accept (.secretKey x.1.locked mat.open_) = .ok m := by
  have hall : ∀ x ∈ named ++ hidden, ∃ r : RsaPair, r.Works ∧ x.2.recipient fl H L pad = .ok r.recipient ∧ x.1.holder L single inverse = .ok (r.holder single) ∧ x.1.locked = false ∧
      ∃ numbers n e, x.2.modulus = some n ∧ x.2.exponent = some e ∧ x.1.keyNumbers = .ok numbers ∧ r.enc = L.rsaEncrypt [n, e] ∧ r.dec = L.rsaDecrypt numbers ∧
        r.k = Nat.log2 n / 8 + 1 := by
    intro x hx
    obtain ⟨h1, pass, data, hd, hh⟩ := hheld x hx
    obtain ⟨_, numbers, hQ, ⟨hv⟩⟩ := held_halves (Q := fun _ => EncryptingPair L) hl hgood hH h10 hS hd hexp hh
    obtain ⟨r, a1, a2, a3, a4, n, e, a5⟩ := halves_pair hv h1 L hQ pad single inverse
    exact ⟨r, a1, a2, a3, a4, numbers, n, e, a5⟩
  haveI : Nonempty RsaPair := ⟨⟨[], id, some, 0⟩⟩
  choose! f hf using hall
  have hfm : ∀ l : List (SecObj × PubKey), (∀ x ∈ l, x ∈ named ++ hidden) →
      (l.map (·.2)).mapM (PubKey.recipient fl H L pad) = .ok ((l.map f).map (·.recipient)) := by
    intro l hl'
    rw [List.map_map]
    exact mapM_map_ok fun x hx => (hf x (hl' x hx)).2.1
  have hmem : ∀ r ∈ named.map f ++ hidden.map f, ∃ x ∈ named ++ hidden, f x = r := by
    intro r hr
    rw [← List.map_append] at hr
    exact List.mem_map.mp hr
  obtain ⟨_, numbers, _, ⟨hv⟩⟩ := held_halves (Q := fun _ _ => True) hl hgood hH h10 hS (file_mono (fun c ⟨n, hn⟩ => ⟨n, hn, trivial⟩) hdata) hexp hheldE
  obtain ⟨v, c, a, mat, priv, id, hf', ha, e4, hpm, hsa, hlock, hn, hid, i2, i1, _⟩ := hv
  subst hpm
  have halg : (mkPubKey v c a none mat).algorithm = a := by cases mat <;> rfl
  rw [halg] at h16
  subst h16
  cases e4 with
  | rsa => rcases hf' with h | h | h <;> cases h
  | dsa => cases hf'
  | elgamal prime g y x =>
  cases hprime
  obtain ⟨e, data, g1, g2, g3, g5, g4⟩ := C81_elgamal_first_partial S H fl hl o op accept hacc (fun d => hH 2 20 rfl d) m hm rs ps hps hrs hex sym bl hsym sk iv us hiv w hw hwl
    id hid ⟨prime, g, y, x⟩ hp hflE inverse hinv pad hpad hsk hpl (named.map f) (hidden.map f)
    (by rintro r hr; obtain ⟨x, hx, rfl⟩ := hmem r hr; exact (hf x hx).1)
    (by
      rintro r hr; obtain ⟨x, hx, rfl⟩ := hmem r hr
      obtain ⟨_, _, _, _, numbers, n, e, b1, b2, b3, b4, b5, b6⟩ := hf x hx
      rw [b6]; exact hroom x hx n b1)
    block hblock
    (by
      rintro r hr; obtain ⟨x, hx, rfl⟩ := hmem r hr
      obtain ⟨_, _, _, _, numbers, n, e, b1, b2, b3, b4, b5, b6⟩ := hf x hx
      rw [b4]; exact hzero x hx n e b1 b2)
    (by
      rintro r hr; obtain ⟨x, hx, rfl⟩ := hmem r hr
      obtain ⟨_, _, _, _, numbers, n, e, b1, b2, b3, b4, b5, b6⟩ := hf x hx
      rw [b4]; exact hfl x hx n e b1 b2)
    (by
      rw [← List.map_append, List.pairwise_map]
      refine List.Pairwise.imp_of_mem ?_ hother
      intro a b ha hb hab
      obtain ⟨_, _, _, _, numbers, n, e, b1, b2, b3, b4, b5, b6⟩ := hf a ha
      obtain ⟨_, _, _, _, numbers', n', e', c1, c2, c3, c4, c5, c6⟩ := hf b hb
      rw [b6, c6, b4, c5]
      rcases hab n e n' numbers' b1 b2 c1 c3 with h | h
      · exact .inl (by omega)
      · exact .inr h)
  refine ⟨⟨hexText id, 16, .elgamal ⟨prime, g, y, 0⟩ pad⟩ :: (named.map f).map (·.recipient), _, e, data, ?_, hfm hidden (fun x hx => List.mem_append_right _ hx), ?_, g2, g3, ?_⟩
  · rw [List.mapM_cons, hfm named (fun x hx => List.mem_append_left _ hx)]
    simp only [PubKey.recipient, i1, except_bind_ok]
    rfl
  · rw [← g1]; rfl
  intro z hz
  rcases List.mem_cons.mp hz with rfl | hz
  · refine ⟨.elgamal ⟨prime, g, y, x⟩ inverse, ?_, ?_⟩
    · simp only [SecObj.holder, hn, except_bind_ok, hsa]
      rfl
    · rw [hlock]; exact g5
  obtain ⟨_, _, b3, b4, _⟩ := hf z hz
  refine ⟨_, b3, ?_⟩
  rw [b4]
  exact g4 (f z) (by rw [← List.map_append]; exact List.mem_map_of_mem hz) single

/-! ### Examples for C112 -/

/-- A library that pads. -/
def boxLib : CryptoLib := { toyLib with
  rsaEncrypt := fun l b => padTo (Nat.log2 (l.headD 0) / 8 + 1) b
  rsaDecrypt := fun _ b => unpad b }

theorem boxLib_pair (numbers : List Nat) : EncryptingPair boxLib numbers := by
  rintro n e d p q u rfl block hb
  exact padTo_inv (Nat.le_trans (Nat.add_le_add_left (by decide) _) hb)

/-- A secret key packet for this material, protected by the passphrase "hi". -/
def exBoxKey (alg : UInt8) (m : KeyMaterial) (ints : List Nat) : Bytes :=
  (4 :: [0, 0, 3, 232] ++ alg :: (m.ints.map mpi).flatten) ++ (254 :: 7 :: (Specifier.simple 2).octets ++ List.replicate 16 9 ++ exProtect ints)

theorem exBoxKey_ok (alg : UInt8) (m : KeyMaterial) (hf : m.fits alg.toNat) (hm : ∀ i ∈ m.ints, i < 2 ^ 600) (ints numbers : List Nat) (hp : PrivateFor m ints numbers) (h : ∀ i ∈ ints, i < 4096) :
    ProtectedKey exCiphers.enc exDigest (· < 2 ^ 600) [104, 105] alg.toNat 7 (.simple 2) numbers (exBoxKey alg m ints) := by
  have key : derivedKey (exDigest 2) [104, 105] 1 16 = List.replicate 16 212 := by decide +kernel
  refine ⟨4, alg, 7, [0, 0, 3, 232], m, ints, List.replicate 16 9, exProtect ints, 20, 16, 1, by decide, rfl, rfl, hf, hm,
    hp, fun i hi => ?_, rfl, trivial, rfl, rfl, by decide, rfl, ?_, rfl⟩
  · exact Nat.lt_of_lt_of_le (show i < 2 ^ 12 from h i hi) (Nat.pow_le_pow_right (by decide) (by decide))
  · show CfbTextIv (exCiphers.enc 7 (derivedKey (exDigest 2) [104, 105] 1 16)) 16 _ _ _
    rw [key]
    exact exProtect_text _

/-- A key file with this primary key. -/
def exBoxFile (alg : UInt8) (m : KeyMaterial) (ints : List Nat) : Bytes :=
  exPacket .old 5 (UInt8.ofNat (exBoxKey alg m ints).length) (exBoxKey alg m ints) ++ ([] ++ [] ++ [] ++ [])

theorem exBoxFile_ok (magic : Bytes → Str) (alg : UInt8) (ha : alg.toNat ≠ 2) (m : KeyMaterial) (hf : m.fits alg.toNat) (hm : ∀ i ∈ m.ints, i < 2 ^ 600) (ints numbers : List Nat) (hp : PrivateFor m ints numbers)
    (h : ∀ i ∈ ints, i < 4096) (hlen : (exBoxKey alg m ints).length < 192) :
    KeyFileOf 5 7 (fun c => ∃ n, OpenableKey exCiphers.enc exDigest (· < 2 ^ 600) (· = 7) [104, 105] n c ∧ (c[5]? = some alg ∧ n = numbers)) magic (· = .old) (· < 2 ^ 600) (exBoxFile alg m ints) := by
  have o1 := exBoxKey_ok alg m hf hm ints numbers hp h
  have hn : (UInt8.ofNat (exBoxKey alg m ints).length).toNat = (exBoxKey alg m ints).length := by
    rw [UInt8.toNat_ofNat']; omega
  exact ⟨_, _, _, _, _, ⟨.old, _, _, rfl, ⟨_, ⟨_, _, _, o1, ha, rfl, trivial⟩, rfl, rfl⟩, exHeader hn (by simp [exBoxKey]) hlen (by decide), rfl⟩, ⟨[], by simp, rfl⟩,
    ⟨[], by simp, rfl⟩, ⟨[], by simp, rfl⟩, ⟨[], by simp, rfl⟩, rfl⟩

theorem exBox_good : ∀ i, i < 2 ^ 600 → LogRoom Nat.log2 i ∧ (0 < i → Nat.log2 i = Nat.log2 i) := fun i hi =>
  ⟨logRoom_of_exact rfl (Nat.lt_of_lt_of_le hi (Nat.pow_le_pow_right (by decide) (by decide))), fun _ => rfl⟩

/-- The first part of such a file, as it is held by two people. -/
theorem exBox_held (magic : Bytes → Str) (alg : UInt8) (ha : alg.toNat ≠ 2) (m : KeyMaterial) (hf : m.fits alg.toNat) (hm : ∀ i ∈ m.ints, i < 2 ^ 600) (ints numbers : List Nat) (hp : PrivateFor m ints numbers)
    (h : ∀ i ∈ ints, i < 4096) (hlen : (exBoxKey alg m ints).length < 192) :
    ∃ s p v c, HeldBy magic Nat.log2 exCiphers exDigest (fun _ => .ok ()) [104, 105] (exBoxFile alg m ints) s p ∧ s.keyNumbers = .ok numbers ∧ p = mkPubKey v c alg.toNat none m := by
  have hok := exBoxFile_ok magic alg ha m hf hm ints numbers hp h hlen
  obtain ⟨k, ring, ring', pub, data', k', keys, r1, r2, r3, r4, r5, r6, r7, r8⟩ :=
    file_halves magic Nat.log2 (fun _ _ _ => rfl) (· < 2 ^ 600) exBox_good (· = .old) exCiphers exDigest exDigest_ok (· = 7) (by decide) exCiphers_work
      (fun c n => c[5]? = some alg ∧ n = numbers) [104, 105] _ hok (fun _ => .ok ()) (fun _ => rfl)
  obtain ⟨m0, subs⟩ := ring'
  cases keys with
  | nil => cases r8
  | cons p ks =>
    obtain ⟨⟨c, n, ⟨q1, rfl⟩, ⟨hv⟩⟩, _⟩ := List.forall₂_cons.mp r8
    obtain ⟨v, cr, a, m', priv, id, hf', ha', e4, hpm, hsa, hlock, hn, hid, i2, i1, i3⟩ := hv
    have ea : alg.toNat = a := by
      rw [q1] at i3
      injection i3 with i3
      rw [i3, UInt8.toNat_ofNat', Nat.mod_eq_of_lt]
      cases m' with
      | rsa => rcases hf' with h | h | h <;> omega
      | dsa => have : a = 17 := hf'; omega
      | elgamal => rcases hf' with h | h <;> omega
    have em : m' = m := by
      rw [← ea] at hf'
      cases e4 <;> cases hp
      · rfl
      · rfl
      · rfl
    subst em
    rw [← ea] at hpm
    exact ⟨m0, p, v, cr, ⟨k, ring, ⟨m0, subs⟩, pub, data', k', p :: ks, 0, r1, r2, r3, r4, r5, r6, r7, rfl, rfl⟩, hn, hpm⟩

/-- Moduli of 301 and of 401 bits; the second recipient is hidden. -/
example (magic : Bytes → Str) : ∃ (named hidden : SecObj × PubKey) (rn rh : List Recipient) (e : Msg) (data : Bytes),
    HeldBy magic Nat.log2 exCiphers exDigest (fun _ => .ok ()) [104, 105] (exBoxFile 1 (.rsa (2 ^ 300 + 1) 17) [5, 6, 7, 8]) named.1 named.2 ∧
    HeldBy magic Nat.log2 exCiphers exDigest (fun _ => .ok ()) [104, 105] (exBoxFile 1 (.rsa (2 ^ 400 + 1) 17) [9, 6, 7, 8]) hidden.1 hidden.2 ∧
    [named.2].mapM (PubKey.recipient Nat.log2 exDigest boxLib []) = .ok rn ∧ [hidden.2].mapM (PubKey.recipient Nat.log2 exDigest boxLib []) = .ok rh ∧
    publicKeyEncrypt exCiphers exDigest Nat.log2 (fun _ => .ok []) (.literal true (.text "hello".toList) "a.txt".toList 5) 7 none (some rn) (some rh) (List.replicate 16 7) (List.replicate 16 9) true = .ok e ∧
    e.bytes Nat.log2 (fun _ => .ok []) = .ok data ∧ readMessage (fun _ => .ok ()) data = .ok e := by
  obtain ⟨s1, p1, v1, c1, h1, n1, e1⟩ := exBox_held magic 1 (by decide) (.rsa (2 ^ 300 + 1) 17) (.inl rfl) (by decide +kernel) [5, 6, 7, 8] _ (.rsa ..) (by decide) (by decide +kernel)
  obtain ⟨s2, p2, v2, c2, h2, n2, e2⟩ := exBox_held magic 1 (by decide) (.rsa (2 ^ 400 + 1) 17) (.inl rfl) (by decide +kernel) [9, 6, 7, 8] _ (.rsa ..) (by decide) (by decide +kernel)
  subst e1 e2
  have ok1 := exBoxFile_ok magic 1 (by decide) (.rsa (2 ^ 300 + 1) 17) (.inl rfl) (by decide +kernel) [5, 6, 7, 8] _ (.rsa ..) (by decide) (by decide +kernel)
  have ok2 := exBoxFile_ok magic 1 (by decide) (.rsa (2 ^ 400 + 1) 17) (.inl rfl) (by decide +kernel) [9, 6, 7, 8] _ (.rsa ..) (by decide) (by decide +kernel)
  have both : ∀ x ∈ [(s1, mkPubKey v1 c1 1 none (.rsa (2 ^ 300 + 1) 17))] ++ [(s2, mkPubKey v2 c2 1 none (.rsa (2 ^ 400 + 1) 17))],
      x = (s1, mkPubKey v1 c1 1 none (.rsa (2 ^ 300 + 1) 17)) ∨ x = (s2, mkPubKey v2 c2 1 none (.rsa (2 ^ 400 + 1) 17)) := by
    intro x hx
    simpa using hx
  obtain ⟨rn, rh, e, data, g1, g2, g3, g4, g5, _⟩ := C112_encrypt_open_partial magic Nat.log2 (fun _ _ _ => rfl) (· < 2 ^ 600) exBox_good (· = .old) exCiphers exDigest exDigest_ok (· = 7) (by decide) exCiphers_work
    boxLib (fun _ => .ok ()) (fun _ => rfl) (fun _ => .ok []) (fun _ _ _ c => .ok c) (fun _ => .ok ()) (fun _ _ => rfl)
    (.literal true (.text "hello".toList) "a.txt".toList 5) (.single _ (.text _ _ _ (by decide) (by decide) (by decide)))
    [⟨.new, 11, [0x75, 5, 97, 46, 116, 120, 116, 0, 0, 0, 5, 104, 101, 108, 108, 111]⟩] [⟨.new, .literal ⟨0x75, "a.txt".toList, .datetime 5, .text "hello".toList⟩⟩]
    rfl rfl (by intro r hr; rw [List.mem_singleton] at hr; subst hr; exact .inl ⟨rfl, by decide, by decide, by decide⟩)
    7 16 (by decide) (List.replicate 16 7) (List.replicate 16 9) (exCiphers_work 7 16 16 _ rfl rfl rfl rfl) rfl
    [0xcb, 16, 0x75, 5, 97, 46, 116, 120, 116, 0, 0, 0, 5, 104, 101, 108, 108, 111] rfl (by decide)
    [(s1, _)] [(s2, _)] (by simp)
    (by
      intro x hx
      rcases both x hx with rfl | rfl
      · exact ⟨rfl, _, _, file_mono (fun c ⟨n, hn, _⟩ => ⟨n, hn, boxLib_pair n⟩) ok1, h1⟩
      · exact ⟨rfl, _, _, file_mono (fun c ⟨n, hn, _⟩ => ⟨n, hn, boxLib_pair n⟩) ok2, h2⟩)
    _ rfl
    (by
      intro x hx n hn
      rcases both x hx with rfl | rfl <;> cases hn <;> decide +kernel)
    (by
      intro x hx n e hn he
      rcases both x hx with rfl | rfl <;> cases hn <;> cases he <;> exact ⟨2, _, rfl, by decide⟩)
    (by
      intro x hx n e hn he
      rcases both x hx with rfl | rfl <;> cases hn <;> cases he <;> exact ⟨by decide +kernel, rfl⟩)
    (by
      simp only [List.singleton_append, List.pairwise_cons, List.mem_singleton, List.not_mem_nil, false_imp_iff, implies_true, List.Pairwise.nil, and_true]
      rintro b rfl n e n' numbers hn he hn' _
      cases hn; cases he; cases hn'
      exact .inl (by decide +kernel))
    [] (fun _ => .error .valueError) (fun _ _ => 0)
  exact ⟨_, _, rn, rh, e, data, h1, h2, g1, g2, g3, g4, g5⟩

/-- A prime of 384 bits. -/
example (magic : Bytes → Str) : ∃ (s : SecObj) (p : PubKey) (r : Recipient) (e : Msg),
    HeldBy magic Nat.log2 exCiphers exDigest (fun _ => .ok ()) [104, 105] (exBoxFile 16 (.elgamal (2 ^ 383 + 187) 5 7) [11]) s p ∧
    p.recipient Nat.log2 exDigest boxLib (List.replicate 26 1) = .ok r ∧
    publicKeyEncrypt exCiphers exDigest Nat.log2 (fun _ => .ok []) (.literal true (.text "hello".toList) "a.txt".toList 5) 7 (some r) none none (List.replicate 16 7) (List.replicate 16 9) true = .ok e := by
  obtain ⟨s1, p1, v1, c1, h1, n1, e1⟩ := exBox_held magic 16 (by decide) (.elgamal (2 ^ 383 + 187) 5 7) (.inl rfl) (by decide +kernel) [11] _ (.elgamal ..) (by decide) (by decide +kernel)
  subst e1
  have ok1 := exBoxFile_ok magic 16 (by decide) (.elgamal (2 ^ 383 + 187) 5 7) (.inl rfl) (by decide +kernel) [11] _ (.elgamal ..) (by decide) (by decide +kernel)
  obtain ⟨r, e, data, mat, g1, g2, _⟩ := C112_elgamal_partial magic Nat.log2 (fun _ _ _ => rfl) (· < 2 ^ 600) exBox_good (· = .old) exCiphers exDigest exDigest_ok (· = 7) (by decide) exCiphers_work
    boxLib (fun _ => .ok ()) (fun _ => rfl) (fun _ => .ok []) (fun _ _ _ c => .ok c) (fun _ => .ok ()) (fun _ _ => rfl)
    (.literal true (.text "hello".toList) "a.txt".toList 5) (.single _ (.text _ _ _ (by decide) (by decide) (by decide)))
    [⟨.new, 11, [0x75, 5, 97, 46, 116, 120, 116, 0, 0, 0, 5, 104, 101, 108, 108, 111]⟩] [⟨.new, .literal ⟨0x75, "a.txt".toList, .datetime 5, .text "hello".toList⟩⟩]
    rfl rfl (by intro r hr; rw [List.mem_singleton] at hr; subst hr; exact .inl ⟨rfl, by decide, by decide, by decide⟩)
    7 16 (by decide) (List.replicate 16 7) (List.replicate 16 9) (exCiphers_work 7 16 16 _ rfl rfl rfl rfl) rfl
    [0xcb, 16, 0x75, 5, 97, 46, 116, 120, 116, 0, 0, 0, 5, 104, 101, 108, 108, 111] rfl (by decide)
    s1 _ rfl _ _ (file_mono (fun c ⟨n, hn, _⟩ => ⟨n, hn⟩) ok1) h1 (2 ^ 383 + 187) rfl (by decide +kernel)
    (fun i _ h => logRoom_of_exact rfl (Nat.lt_trans h (Nat.lt_of_lt_of_le (show 2 ^ 383 + 187 < 2 ^ 384 by decide +kernel) (Nat.pow_le_pow_right (by decide) (by decide)))))
    _ (inverse_exists _ (by decide +kernel)) (List.replicate 26 1) (fun x hx => by rw [List.eq_of_mem_replicate hx]; decide) (by decide +kernel) (by decide +kernel) (fun _ => .error .valueError)
  exact ⟨_, _, r, e, h1, g1, g2⟩

/-- A prime of 384 bits, and moduli of 301 and of 401 bits; the third recipient is hidden. -/
example (magic : Bytes → Str) : ∃ (s : SecObj) (p : PubKey) (named hidden : SecObj × PubKey) (rn rh : List Recipient) (e : Msg) (data : Bytes),
    HeldBy magic Nat.log2 exCiphers exDigest (fun _ => .ok ()) [104, 105] (exBoxFile 16 (.elgamal (2 ^ 383 + 187) 5 7) [11]) s p ∧
    HeldBy magic Nat.log2 exCiphers exDigest (fun _ => .ok ()) [104, 105] (exBoxFile 1 (.rsa (2 ^ 300 + 1) 17) [5, 6, 7, 8]) named.1 named.2 ∧
    HeldBy magic Nat.log2 exCiphers exDigest (fun _ => .ok ()) [104, 105] (exBoxFile 1 (.rsa (2 ^ 400 + 1) 17) [9, 6, 7, 8]) hidden.1 hidden.2 ∧
    [p, named.2].mapM (PubKey.recipient Nat.log2 exDigest boxLib (List.replicate 26 1)) = .ok rn ∧ [hidden.2].mapM (PubKey.recipient Nat.log2 exDigest boxLib (List.replicate 26 1)) = .ok rh ∧
    publicKeyEncrypt exCiphers exDigest Nat.log2 (fun _ => .ok []) (.literal true (.text "hello".toList) "a.txt".toList 5) 7 none (some rn) (some rh) (List.replicate 16 7) (List.replicate 16 9) true = .ok e ∧
    e.bytes Nat.log2 (fun _ => .ok []) = .ok data ∧ readMessage (fun _ => .ok ()) data = .ok e := by
  obtain ⟨s0, p0, v0, c0, h0, n0, e0⟩ := exBox_held magic 16 (by decide) (.elgamal (2 ^ 383 + 187) 5 7) (.inl rfl) (by decide +kernel) [11] _ (.elgamal ..) (by decide) (by decide +kernel)
  subst e0
  have ok0 := exBoxFile_ok magic 16 (by decide) (.elgamal (2 ^ 383 + 187) 5 7) (.inl rfl) (by decide +kernel) [11] _ (.elgamal ..) (by decide) (by decide +kernel)
  obtain ⟨s1, p1, v1, c1, h1, n1, e1⟩ := exBox_held magic 1 (by decide) (.rsa (2 ^ 300 + 1) 17) (.inl rfl) (by decide +kernel) [5, 6, 7, 8] _ (.rsa ..) (by decide) (by decide +kernel)
  obtain ⟨s2, p2, v2, c2, h2, n2, e2⟩ := exBox_held magic 1 (by decide) (.rsa (2 ^ 400 + 1) 17) (.inl rfl) (by decide +kernel) [9, 6, 7, 8] _ (.rsa ..) (by decide) (by decide +kernel)
  subst e1 e2
  have ok1 := exBoxFile_ok magic 1 (by decide) (.rsa (2 ^ 300 + 1) 17) (.inl rfl) (by decide +kernel) [5, 6, 7, 8] _ (.rsa ..) (by decide) (by decide +kernel)
  have ok2 := exBoxFile_ok magic 1 (by decide) (.rsa (2 ^ 400 + 1) 17) (.inl rfl) (by decide +kernel) [9, 6, 7, 8] _ (.rsa ..) (by decide) (by decide +kernel)
  have both : ∀ x ∈ [(s1, mkPubKey v1 c1 1 none (.rsa (2 ^ 300 + 1) 17))] ++ [(s2, mkPubKey v2 c2 1 none (.rsa (2 ^ 400 + 1) 17))],
      x = (s1, mkPubKey v1 c1 1 none (.rsa (2 ^ 300 + 1) 17)) ∨ x = (s2, mkPubKey v2 c2 1 none (.rsa (2 ^ 400 + 1) 17)) := by
    intro x hx
    simpa using hx
  obtain ⟨rn, rh, e, data, g1, g2, g3, g4, g5, _⟩ := C112_elgamal_first_partial magic Nat.log2 (fun _ _ _ => rfl) (· < 2 ^ 600) exBox_good (· = .old) exCiphers exDigest exDigest_ok (· = 7) (by decide) exCiphers_work
    boxLib (fun _ => .ok ()) (fun _ => rfl) (fun _ => .ok []) (fun _ _ _ c => .ok c) (fun _ => .ok ()) (fun _ _ => rfl)
    (.literal true (.text "hello".toList) "a.txt".toList 5) (.single _ (.text _ _ _ (by decide) (by decide) (by decide)))
    [⟨.new, 11, [0x75, 5, 97, 46, 116, 120, 116, 0, 0, 0, 5, 104, 101, 108, 108, 111]⟩] [⟨.new, .literal ⟨0x75, "a.txt".toList, .datetime 5, .text "hello".toList⟩⟩]
    rfl rfl (by intro r hr; rw [List.mem_singleton] at hr; subst hr; exact .inl ⟨rfl, by decide, by decide, by decide⟩)
    7 16 (by decide) (List.replicate 16 7) (List.replicate 16 9) (exCiphers_work 7 16 16 _ rfl rfl rfl rfl) rfl
    [0xcb, 16, 0x75, 5, 97, 46, 116, 120, 116, 0, 0, 0, 5, 104, 101, 108, 108, 111] rfl (by decide)
    [(s1, _)] [(s2, _)]
    s0 _ rfl _ _ (file_mono (fun c ⟨n, hn, _⟩ => ⟨n, hn⟩) ok0) h0 (2 ^ 383 + 187) rfl (by decide +kernel)
    (fun i _ h => logRoom_of_exact rfl (Nat.lt_trans h (Nat.lt_of_lt_of_le (show 2 ^ 383 + 187 < 2 ^ 384 by decide +kernel) (Nat.pow_le_pow_right (by decide) (by decide)))))
    (by
      intro x hx
      rcases both x hx with rfl | rfl
      · exact ⟨rfl, _, _, file_mono (fun c ⟨n, hn, _⟩ => ⟨n, hn, boxLib_pair n⟩) ok1, h1⟩
      · exact ⟨rfl, _, _, file_mono (fun c ⟨n, hn, _⟩ => ⟨n, hn, boxLib_pair n⟩) ok2, h2⟩)
    _ rfl
    (by
      intro x hx n hn
      rcases both x hx with rfl | rfl <;> cases hn <;> decide +kernel)
    (by
      intro x hx n e hn he
      rcases both x hx with rfl | rfl <;> cases hn <;> cases he <;> exact ⟨2, _, rfl, by decide⟩)
    (by
      intro x hx n e hn he
      rcases both x hx with rfl | rfl <;> cases hn <;> cases he <;> exact ⟨by decide +kernel, rfl⟩)
    (by
      simp only [List.singleton_append, List.pairwise_cons, List.mem_singleton, List.not_mem_nil, false_imp_iff, implies_true, List.Pairwise.nil, and_true]
      rintro b rfl n e n' numbers hn he hn' _
      cases hn; cases he; cases hn'
      exact .inl (by decide +kernel))
    _ (inverse_exists _ (by decide +kernel)) (List.replicate 26 1) (fun x hx => by rw [List.eq_of_mem_replicate hx]; decide) (by decide +kernel) (by decide +kernel) (fun _ => .error .valueError)
  exact ⟨_, _, _, _, rn, rh, e, data, h0, h1, h2, g1, g2, g3, g4, g5⟩

end Pgp.Props
