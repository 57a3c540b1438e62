import Verif.Model.Revoked
import Verif.Spec.Revoked
import Verif.Props.KeySigs
import Verif.Props.Certify
import Verif.Props.KeyIds
import Verif.Props.KeyUse
import Mathlib.Tactic.Tauto
/-
C118: whether, and why, a part of a key is revoked.
-/
namespace Pgp.Props
open Pgp Pgp.Spec

theorem revTypes_eq (at' : Place) (t : Nat) : t ∈ at'.revTypes ↔ t = revocationType at' := by
  cases at' <;> simp [Place.revTypes, revocationType]

theorem meets_issued {own ids : List Str} {s : SigObj} (h : s.issuers = .ok ids) : meets own ids = true ↔ IssuedBy own s := by
  unfold meets
  rw [List.any_eq_true]
  constructor
  · rintro ⟨k, hk, ho⟩
    exact ⟨ids, h, k, of_decide_eq_true ho, hk⟩
  · rintro ⟨ids', h', k, hk, ho⟩
    rw [h] at h'
    cases h'
    exact ⟨k, ho, decide_eq_true hk⟩

/-- The self-signatures, in order. -/
theorem selfSignatures_mem {own : List Str} : ∀ {l : List SigObj}, (∀ s ∈ l, ∃ ids, s.issuers = .ok ids) →
    ∃ r, selfSignatures (.ok own) l = .ok r ∧ r.Sublist l ∧ ∀ s, s ∈ r ↔ s ∈ l ∧ IssuedBy own s := by
  intro l
  induction l with
  | nil => intro _; exact ⟨[], rfl, .slnil, by simp⟩
  | cons s l ih =>
    intro h
    obtain ⟨ids, hi⟩ := h s List.mem_cons_self
    obtain ⟨r, hr, hsub, hm⟩ := ih fun x hx => h x (List.mem_cons_of_mem _ hx)
    refine ⟨if meets own ids then s :: r else r, by simp only [selfSignatures, hi, hr, except_bind_ok]; rfl, ?_, ?_⟩
    · split
      · exact hsub.cons_cons s
      · exact hsub.cons s
    · intro x
      by_cases hq : meets own ids = true
      · rw [if_pos hq, List.mem_cons, List.mem_cons, hm]
        constructor
        · rintro (rfl | ⟨h1, h2⟩)
          · exact ⟨.inl rfl, (meets_issued hi).mp hq⟩
          · exact ⟨.inr h1, h2⟩
        · rintro ⟨rfl | h1, h2⟩
          · exact .inl rfl
          · exact .inr ⟨h1, h2⟩
      · rw [if_neg hq, hm, List.mem_cons]
        constructor
        · rintro ⟨h1, h2⟩; exact ⟨.inr h1, h2⟩
        · rintro ⟨rfl | h1, h2⟩
          · exact absurd ((meets_issued hi).mpr h2) hq
          · exact ⟨h1, h2⟩

/-- The signatures that count, when none can itself be revoked. -/
theorem countingSigs_mem {fl : FloorLog2} {now : Int} {types : List Nat} {all : List SigObj} : ∀ {l : List SigObj},
    (∀ s ∈ l, s.sigType ∈ types → sigRevoked fl all s = .ok false) → (∀ s ∈ l, ∃ b, s.expired now = .ok b) →
    ∃ r, countingSigs fl now types all l = .ok r ∧ r.Sublist l ∧ ∀ s, s ∈ r ↔ s ∈ l ∧ s.sigType ∈ types ∧ s.expired now = .ok false := by
  intro l
  induction l with
  | nil => intro _ _; exact ⟨[], rfl, .slnil, by simp⟩
  | cons s l ih =>
    intro h1 h2
    obtain ⟨b, hb⟩ := h2 s List.mem_cons_self
    obtain ⟨r, hr, hsub, hm⟩ := ih (fun x hx => h1 x (List.mem_cons_of_mem _ hx)) fun x hx => h2 x (List.mem_cons_of_mem _ hx)
    by_cases ht : s.sigType ∈ types
    · have hs := h1 s List.mem_cons_self ht
      have hc : sigCounts fl now types all s = .ok (!b) := by
        simp only [sigCounts, if_pos ht, hs, hb, except_bind_ok, Bool.false_eq_true, if_false, except_pure]
      refine ⟨if (!b) = true then s :: r else r, by simp only [countingSigs, hc, hr, except_bind_ok]; rfl, ?_, ?_⟩
      · split
        · exact hsub.cons_cons s
        · exact hsub.cons s
      · intro x
        cases b with
        | false =>
          rw [if_pos (show (!false) = true from rfl), List.mem_cons, List.mem_cons, hm]
          constructor
          · rintro (rfl | ⟨a, b⟩)
            · exact ⟨.inl rfl, ht, hb⟩
            · exact ⟨.inr a, b⟩
          · rintro ⟨rfl | a, b⟩
            · exact .inl rfl
            · exact .inr ⟨a, b⟩
        | true =>
          rw [if_neg (by simp), hm, List.mem_cons]
          constructor
          · rintro ⟨a, b⟩; exact ⟨.inr a, b⟩
          · rintro ⟨rfl | a, b⟩
            · rw [hb] at b; cases b.2
            · exact ⟨a, b⟩
    · have hc : sigCounts fl now types all s = .ok false := if_neg ht
      refine ⟨r, by simp only [countingSigs, hc, hr, except_bind_ok]; rfl, hsub.cons s, ?_⟩
      intro x
      rw [hm, List.mem_cons]
      constructor
      · rintro ⟨a, b⟩; exact ⟨.inr a, b⟩
      · rintro ⟨rfl | a, b⟩
        · exact absurd b.1 ht
        · exact ⟨a, b⟩

theorem not_revocable {fl : FloorLog2} {all : List SigObj} {s : SigObj} (h : s.sigType ∈ revocationTypes) : sigRevoked fl all s = .ok false := by
  unfold sigRevoked
  rw [if_neg]
  simp only [revocationTypes, List.mem_cons, List.not_mem_nil, or_false] at h ⊢
  omega

/-! A key with a user id and a subkey; its key ids under a digest that is always zero. -/

def exZero : Digest := fun _ _ => List.replicate 20 0
def exZeroId : Str := "0000000000000000".toList
/-- A signature by the key itself, or by another one. -/
def exRevSig (type : Nat) (more : List Sub) (by' : Str) : Sig := .v4 4 type 1 8 (.plain false (.creationTime 1000) :: more) [.plain false (.issuer by')] [1, 2] [some 77]
def exRevObj (type : Nat) (more : List Sub) (by' : Str) : SigObj :=
  ⟨4, type, 1, 8, none, none, .plain false (.creationTime 1000) :: more, [.plain false (.issuer by')], [1, 2], [some 77], .new⟩
def exRevKey (direct cert : List Sig) : TKey :=
  ⟨(⟨.new, .key false false (mkPubKey 4 1000 1 none (.rsa 3233 17)) none⟩, direct.map fun s => ⟨.new, .sig s⟩),
    [(⟨.new, .uid ['A']⟩, cert.map fun s => ⟨.new, .sig s⟩)], [],
    [(⟨.new, .key false true (mkPubKey 4 1001 1 none (.rsa 3233 17)) none⟩, [⟨.new, .sig (exRevSig 0x18 [] exZeroId)⟩])]⟩

theorem exRevKey_ids (direct cert : List Sig) : (exRevKey direct cert).ownIds Nat.log2 exZero = .ok [exZeroId, exZeroId] := by
  show List.mapM _ [mkPubKey 4 1000 1 none (.rsa 3233 17), mkPubKey 4 1001 1 none (.rsa 3233 17)] = _
  decide +kernel

/-- C118 (part that holds): a part is said to be revoked exactly if one of its signatures is of the type that revokes it, names a key of this key's as its
issuer, and has not expired. -/
theorem C118_revoked_iff_partial (fl : FloorLog2) (H : Digest) (now : Int) (k : TKey) (at' : Place) (g : KGroup) (sigs : List SigObj) (ids : List Str)
    (hg : k.part at' = some g) (hs : groupSigs g = .ok sigs) (hids : k.ownIds fl H = .ok ids) (hd : ∀ s ∈ sigs, Dated now s) :
    ∃ b, k.revoked fl H now at' = .ok b ∧ (b = true ↔ ∃ s ∈ sigs, SaysRevoked ids now at' s) := by
  obtain ⟨r, hr, hsub, hm⟩ := selfSignatures_mem (own := ids) (l := sigs) fun s h => (hd s h).1
  obtain ⟨q, hq, _, hqm⟩ := countingSigs_mem (fl := fl) (now := now) (types := at'.revTypes) (all := sigs) (l := r)
    (fun s _ ht => not_revocable (by rw [revTypes_eq] at ht; cases at' <;> simp [ht, revocationType, revocationTypes]))
    (fun s h => (hd s (hsub.subset h)).2)
  refine ⟨!q.isEmpty, ?_, ?_⟩
  · simp only [TKey.revoked, TKey.revocations, hg, hs, signaturesOf, hids, hr, hq, except_bind_ok, except_pure]
  · constructor
    · intro h
      cases q with
      | nil => cases h
      | cons s q =>
        obtain ⟨h1, h2, h3⟩ := (hqm s).mp List.mem_cons_self
        obtain ⟨h4, h5⟩ := (hm s).mp h1
        exact ⟨s, h4, (revTypes_eq _ _).mp h2, h5, h3⟩
    · rintro ⟨s, h1, h2, h3, h4⟩
      have := (hqm s).mpr ⟨(hm s).mpr ⟨h1, h3⟩, (revTypes_eq _ _).mpr h2, h4⟩
      cases q with
      | nil => cases this
      | cons => rfl

example := C118_revoked_iff_partial Nat.log2 exZero 5 (exRevKey [exRevSig 0x20 [] exZeroId] []) .primary _ [exRevObj 0x20 [] exZeroId] _ rfl rfl
  (exRevKey_ids _ _) (by intro s hs; rw [List.mem_singleton.mp hs]; exact ⟨⟨[exZeroId], rfl⟩, false, rfl⟩)

/-! ### The key ids -/

theorem signed_public {fl : FloorLog2} {e : KElem} {p : PubKey} (h : e.pubKey = some p) : e.signedContent fl = p.publicContent fl := by
  obtain ⟨f, i⟩ := e
  cases i with
  | key a b k c => cases h; rfl
  | uid _ => cases h
  | attr _ => cases h
  | sig _ => cases h

/-- C118: the key ids looked for are those of the primary key and of the subkeys, as RFC 4880 defines them for version 4. -/
theorem C118_own_ids_partial (fl : FloorLog2) (H : Digest) (hH : ∀ d, (H 2 d).length = 20) (k : TKey) (keys : List PubKey) (contents : List Bytes)
    (hk : k.pubKeys = some keys) (hc : List.Forall₂ (fun p c => 4 ≤ p.version ∧ p.publicContent fl = .ok c) keys contents) :
    k.ownIds fl H = .ok (contents.map (longKeyId (H 2))) := by
  simp only [TKey.ownIds, hk]
  clear hk
  induction hc with
  | nil => rfl
  | cons h _ ih =>
    rw [List.mapM_cons, C93_key_id fl H hH _ h.1 _ h.2]
    simp only [except_bind_ok, ih]
    rfl

example := C118_own_ids_partial Nat.log2 exZero (fun _ => rfl) (exRevKey [] []) [mkPubKey 4 1000 1 none (.rsa 3233 17), mkPubKey 4 1001 1 none (.rsa 3233 17)] _ rfl
  (.cons ⟨by decide, C87_public_key_written Nat.log2 4 1 [0, 0, 3, 232] [] none (.rsa 3233 17) rfl (.inr ⟨by decide, rfl, rfl⟩) (.inl rfl) (fun _ _ _ => rfl)⟩
    (.cons ⟨by decide, C87_public_key_written Nat.log2 4 1 [0, 0, 3, 233] [] none (.rsa 3233 17) rfl (.inr ⟨by decide, rfl, rfl⟩) (.inl rfl) (fun _ _ _ => rfl)⟩ .nil))

theorem sequence_public {ps : List KBody} (h : KeySequence false ps) : ∀ s u k priv, KBody.key s u k priv ∈ ps → s = false := by
  obtain ⟨pk, priv, direct, uids, attrs, subs, rfl, hdir, hu, ha, hsub⟩ := h
  intro s u k pr hm
  have run : ∀ (types : List Nat) (a : Bool) (l : List KBody), SigRun types a l → KBody.key s u k pr ∉ l := by
    intro types a l h hm
    rcases h.1 _ hm with h | h <;> exact h.elim
  rw [List.mem_cons, List.mem_append, List.mem_append, List.mem_append] at hm
  rcases hm with hm | ((hm | hm) | hm) | hm
  · cases hm; rfl
  · exact absurd hm (run _ _ _ hdir.1)
  · obtain ⟨gs, rfl, hgs⟩ := hu
    obtain ⟨l, hl, hm⟩ := List.mem_flatten.mp hm
    obtain ⟨_, body, rfl, hr⟩ := hgs l hl
    rcases List.mem_cons.mp hm with hm | hm
    · cases hm
    · exact absurd hm (run _ _ _ hr)
  · obtain ⟨gs, rfl, hgs⟩ := ha
    obtain ⟨l, hl, hm⟩ := List.mem_flatten.mp hm
    obtain ⟨_, body, rfl, hr⟩ := hgs l hl
    rcases List.mem_cons.mp hm with hm | hm
    · cases hm
    · exact absurd hm (run _ _ _ hr)
  · obtain ⟨⟨gs, rfl, hgs⟩, _⟩ := hsub
    obtain ⟨l, hl, hm⟩ := List.mem_flatten.mp hm
    obtain ⟨_, _, body, rfl, _, hr⟩ := hgs l hl
    rcases List.mem_cons.mp hm with hm | hm
    · cases hm; rfl
    · exact absurd hm (run _ _ _ hr)

theorem raw_facts {fl : FloorLog2} {p : KPacket} {r : RawPacket} (h : p.raw fl none = .ok r) : r.type = p.body.type ∧ p.body.content fl = .ok r.content := by
  unfold KPacket.raw at h
  obtain ⟨c, hc, h⟩ := except_bind_eq_ok.mp h
  cases h
  exact ⟨rfl, hc⟩

theorem content_version {fl : FloorLog2} {k : PubKey} {c : Bytes} (h : k.publicContent fl = .ok c) : ∃ rest, k.version < 256 ∧ c = UInt8.ofNat k.version :: rest := by
  unfold PubKey.publicContent at h
  obtain ⟨v, hv, h⟩ := except_bind_eq_ok.mp h
  obtain ⟨hlt, rfl⟩ := byteOf_ok hv
  obtain ⟨d, _, h⟩ := except_bind_eq_ok.mp h
  obtain ⟨a, _, h⟩ := except_bind_eq_ok.mp h
  simp only at h
  split at h
  · obtain ⟨_, _, h⟩ := except_bind_eq_ok.mp h
    obtain ⟨_, _, h⟩ := except_bind_eq_ok.mp h
    cases h
    exact ⟨_, hlt, rfl⟩
  · split at h
    · obtain ⟨_, _, h⟩ := except_bind_eq_ok.mp h
      obtain ⟨_, _, h⟩ := except_bind_eq_ok.mp h
      obtain ⟨_, _, h⟩ := except_bind_eq_ok.mp h
      cases h
      exact ⟨_, hlt, rfl⟩
    · split at h
      · obtain ⟨_, _, h⟩ := except_bind_eq_ok.mp h
        obtain ⟨_, _, h⟩ := except_bind_eq_ok.mp h
        obtain ⟨_, _, h⟩ := except_bind_eq_ok.mp h
        obtain ⟨_, _, h⟩ := except_bind_eq_ok.mp h
        cases h
        exact ⟨_, hlt, rfl⟩
      · cases h

theorem holds_key {magic : Bytes → Str} {F : HeaderFormat → Prop} {fl : Nat → Nat} {good : Nat → Prop} {r : RawPacket} {p : KPacket}
    (h : Holds magic F fl good r p) {u : Bool} {k : PubKey} {priv : Option SecPart} (hb : p.body = .key false u k priv) :
    k.publicContent fl = .ok r.content ∧ k.expirationDays = none ∧ (r.type = 6 ∨ r.type = 14) ∧ 4 ≤ k.version := by
  obtain ⟨h1, h2, _, h4, _, h6⟩ := h
  obtain ⟨ht, hc⟩ := raw_facts h2
  have ht' : r.type = 6 ∨ r.type = 14 := by rw [ht, hb]; cases u <;> simp [KBody.type]
  have hn : priv = none := by
    unfold readPacket readBody at h1
    rw [dif_pos ht'] at h1
    obtain ⟨b', hb', h1⟩ := except_bind_eq_ok.mp h1
    cases h1
    obtain ⟨_, _, hb'⟩ := except_bind_eq_ok.mp hb'
    cases hb'
    cases hb
    rfl
  subst hn
  rw [hb] at h4 hc h6
  refine ⟨hc, h4, ht', ?_⟩
  obtain ⟨c, hc', v, a, t, m, hv, _, _, _, rfl⟩ := h6
  obtain ⟨rest, hlt, he⟩ := content_version hc'
  rw [List.cons_append, List.cons.injEq] at he
  rw [he.1, toNat_ofNat_lt hlt] at hv
  exact hv

theorem holds_other {magic : Bytes → Str} {F : HeaderFormat → Prop} {fl : Nat → Nat} {good : Nat → Prop} {r : RawPacket} {p : KPacket}
    (h : Holds magic F fl good r p) (hn : ∀ s u k priv, p.body ≠ .key s u k priv) : ¬(r.type = 6 ∨ r.type = 14) := by
  obtain ⟨_, h2, _, h4, _⟩ := h
  rw [(raw_facts h2).1]
  cases hb : p.body with
  | key s u k priv => exact absurd hb (hn s u k priv)
  | sig _ => simp [KBody.type]
  | uid _ => simp [KBody.type]
  | attr _ => simp [KBody.type]
  | trust _ => simp [KBody.type]
  | other _ => rw [hb] at h4; exact h4.elim

theorem held_contents {magic : Bytes → Str} {F : HeaderFormat → Prop} {fl : Nat → Nat} {good : Nat → Prop} {rs : List RawPacket} {ps : List KPacket}
    (hh : List.Forall₂ (Holds magic F fl good) rs ps) (hpub : ∀ p ∈ ps, ∀ s u k priv, p.body = .key s u k priv → s = false) :
    List.Forall₂ (fun p c => 4 ≤ p.version ∧ p.publicContent fl = .ok c) (packetKeys ps)
      ((rs.filter fun r => r.type = 6 ∨ r.type = 14).map fun r => r.content) := by
  induction hh with
  | nil => exact .nil
  | @cons r p rs ps h _ ih =>
    have cut : packetKeys (p :: ps) = packetKeys [p] ++ packetKeys ps := packetKeys_append [p] ps
    rw [cut]
    have ih := ih fun q hq => hpub q (List.mem_cons_of_mem _ hq)
    by_cases hk : ∃ s u k priv, p.body = .key s u k priv
    · obtain ⟨s, u, k, priv, hb⟩ := hk
      obtain rfl := hpub p List.mem_cons_self s u k priv hb
      obtain ⟨h1, h2, h3, h4⟩ := holds_key h hb
      have hone : packetKeys [p] = [k] := by
        have : ({ k with expirationDays := none } : PubKey) = k := by rw [← h2]
        simp only [packetKeys, List.filterMap_cons, hb, this, List.filterMap_nil]
      rw [hone, List.filter_cons, if_pos (by simpa using h3)]
      exact .cons ⟨h4, h1⟩ ih
    · have hn : ∀ s u k priv, p.body ≠ .key s u k priv := fun s u k priv hb => hk ⟨s, u, k, priv, hb⟩
      rw [packetKeys_none (ps := [p]) (by intro q hq; rw [List.mem_singleton.mp hq]; exact hn), List.filter_cons,
        if_neg (by simpa using holds_other h hn)]
      exact ih

/-- C118: in the octets of a public key file these are the ids of the packets of type 6 and 14. -/
theorem C118_file_ids_partial (magic : Bytes → Str) (fl : Nat → Nat) (good : Nat → Prop) (hgood : ∀ i, good i → LogRoom fl i ∧ (0 < i → fl i = Nat.log2 i))
    (F : HeaderFormat → Prop) (data : Bytes) (hdata : PublicKeyFile magic F good data) (k : TKey) (hread : readKey magic data = .ok k)
    (H : Digest) (hH : ∀ d, (H 2 d).length = 20) :
    ∃ rs, parseBinaryPacketData data = .ok rs ∧
      k.ownIds fl H = .ok ((rs.filter fun r => r.type = 6 ∨ r.type = 14).map fun r => longKeyId (H 2) r.content) := by
  obtain ⟨ps, hrep, hseq⟩ := file_rep hgood hdata
  obtain ⟨k0, r1, _, _, r4⟩ := rep_read_full hrep hseq
  rw [hread] at r1
  cases r1
  obtain ⟨rs, es, hh, he, rfl⟩ := hrep
  have hex : ∀ r ∈ rs, Expressible r := fun r hr => (forall₂_mem_left hh r hr).elim fun p hp => hp.2.2.2.2.2.1
  obtain ⟨es', h3, h4⟩ := C10_parse_concat_partial rs hex
  rw [he] at h3
  cases h3
  refine ⟨rs, h4, ?_⟩
  have hnt : ∀ p ∈ ps, ¬ IsTrust p.body := fun p hp ht => by
    have : Modern magic p.body := (forall₂_mem_right hh p hp).elim fun r hr => hr.2.2.2.2.1
    cases hb : p.body <;> rw [hb] at ht this <;> first | exact ht | exact this
  have hkeys := pubKeys_of hseq hnt r4
  have hpub : ∀ p ∈ ps, ∀ s u k priv, p.body = .key s u k priv → s = false := fun p hp s u k priv hb =>
    sequence_public hseq s u k priv (hb ▸ List.mem_map.mpr ⟨p, hp, rfl⟩)
  have hall : List.Forall₂ (fun p c => 4 ≤ p.version ∧ p.publicContent fl = .ok c) (packetKeys ps)
      ((rs.filter fun r => r.type = 6 ∨ r.type = 14).map fun r => r.content) := by
    clear hkeys r4 hnt hseq hread hdata h4 he hex
    exact held_contents hh hpub
  rw [C118_own_ids_partial fl H hH k _ _ hkeys hall, List.map_map]
  rfl

example (magic : Bytes → Str) (k : TKey) (hk : readKey magic (exFile .old) = .ok k) :=
  C118_file_ids_partial magic Nat.log2 _ exGood _ (exFile .old) (exFile_ok magic .old) k hk exZero (fun _ => rfl)

/-! ### What is not checked -/

theorem groupSigs_append {g : KGroup} {sigs : List SigObj} (h : groupSigs g = .ok sigs) {e : KElem} {s : SigObj} (he : e.sigObj = .ok s) :
    groupSigs (g.1, g.2 ++ [e]) = .ok (sigs ++ [s]) := by
  unfold groupSigs at h ⊢
  simp only [List.mapM_append, h, List.mapM_cons, List.mapM_nil, he, except_bind_ok, except_pure]

theorem add_pubKeys (k : TKey) (e : KElem) (at' : Place) : (k.addSignature e at').pubKeys = k.pubKeys := by
  cases at' with
  | primary => rfl
  | uid n => rfl
  | attr n => rfl
  | sub n =>
    have : ∀ (l : List KGroup) (n : Nat), (l.modify n fun g => (g.1, g.2 ++ [e])).mapM (fun g => g.1.pubKey) = l.mapM (fun g => g.1.pubKey) := by
      intro l
      induction l with
      | nil => intro n; cases n <;> rfl
      | cons g l ih =>
        intro n
        cases n with
        | zero => simp only [List.modify_zero_cons, List.mapM_cons]
        | succ n => simp only [List.modify_succ_cons, List.mapM_cons, ih]
    simp only [TKey.pubKeys, TKey.addSignature, this]

/-- C118 (refuted): nothing is verified. Any signature packet of the right type that names the key, be it in the part of the packet that is not signed,
makes the key, subkey, user id or attribute count as revoked, whatever the digest and the numbers of the signature are. -/
theorem C118_unverified_refuted (fl : FloorLog2) (H : Digest) (now : Int) (k : TKey) (at' : Place) (g : KGroup) (sigs : List SigObj) (ids : List Str)
    (hg : k.part at' = some g) (hs : groupSigs g = .ok sigs) (hids : k.ownIds fl H = .ok ids) (hd : ∀ s ∈ sigs, Dated now s) (id : Str) (hid : id ∈ ids)
    (f : HeaderFormat) (pubAlg hashAlg created : Nat) (hash2 : Bytes) (values : List (Option Nat)) :
    (k.addSignature ⟨f, .sig (.v4 4 (revocationType at') pubAlg hashAlg [.plain false (.creationTime created)] [.plain false (.issuer id)] hash2 values)⟩ at').revoked
      fl H now at' = .ok true := by
  generalize he : (⟨f, .sig (.v4 4 (revocationType at') pubAlg hashAlg [.plain false (.creationTime created)] [.plain false (.issuer id)] hash2 values)⟩ : KElem) = e
  have hso : e.sigObj = .ok ⟨4, revocationType at', pubAlg, hashAlg, none, none, [.plain false (.creationTime created)], [.plain false (.issuer id)], hash2, values, f⟩ := by
    rw [← he]; rfl
  generalize hs' : (⟨4, revocationType at', pubAlg, hashAlg, none, none, [.plain false (.creationTime created)], [.plain false (.issuer id)], hash2, values, f⟩ : SigObj) = s at hso
  have h1 : s.issuers = .ok [id] := by rw [← hs']; rfl
  have h2 : s.expired now = .ok false := by rw [← hs']; rfl
  have h3 : s.sigType = revocationType at' := by rw [← hs']
  have hp : (k.addSignature e at').part at' = some (g.1, g.2 ++ [e]) := by
    cases at' with
    | primary => cases hg; rfl
    | uid n => simp only [TKey.part] at hg; simp only [TKey.part, TKey.addSignature, List.getElem?_modify_eq, hg]; rfl
    | attr n => simp only [TKey.part] at hg; simp only [TKey.part, TKey.addSignature, List.getElem?_modify_eq, hg]; rfl
    | sub n => simp only [TKey.part] at hg; simp only [TKey.part, TKey.addSignature, List.getElem?_modify_eq, hg]; rfl
  obtain ⟨b, hb, hiff⟩ := C118_revoked_iff_partial fl H now (k.addSignature e at') at' _ _ ids hp (groupSigs_append hs hso)
    (by unfold TKey.ownIds at hids ⊢; rw [add_pubKeys]; exact hids)
    (by
      intro x hx
      rcases List.mem_append.mp hx with hx | hx
      · exact hd x hx
      · rw [List.mem_singleton.mp hx]; exact ⟨⟨_, h1⟩, _, h2⟩)
  rw [hb, hiff.mpr ⟨s, by simp, h3, ⟨_, h1, id, by simp, hid⟩, h2⟩]

example := C118_unverified_refuted Nat.log2 exZero 5 (exRevKey [] []) (.sub 0) _ [exRevObj 0x18 [] exZeroId] _ rfl rfl (exRevKey_ids _ _)
  (by intro s hs; rw [List.mem_singleton.mp hs]; exact ⟨⟨[exZeroId], rfl⟩, false, rfl⟩) exZeroId (by simp) .new 1 2 0 [0, 0] []

/-- C118 (refuted): a revocation by a key that has been appointed to revoke this one does not count. -/
theorem C118_appointed_refuted (fl : FloorLog2) (H : Digest) (now : Int) (k : TKey) (g : KGroup) (sigs : List SigObj) (ids : List Str)
    (hg : k.part .primary = some g) (hs : groupSigs g = .ok sigs) (hids : k.ownIds fl H = .ok ids) (hd : ∀ s ∈ sigs, Dated now s) (fp : Str)
    (_ : Appointed sigs fp) (hown : lastChars 16 fp ∉ ids) (honly : ∀ s ∈ sigs, s.sigType = 0x20 → s.issuers = .ok [lastChars 16 fp]) :
    k.revoked fl H now .primary = .ok false := by
  obtain ⟨b, hb, hiff⟩ := C118_revoked_iff_partial fl H now k .primary g sigs ids hg hs hids hd
  rw [hb]
  cases b with
  | false => rfl
  | true =>
    obtain ⟨s, h1, h2, ⟨js, h3, x, hx, hx'⟩, _⟩ := hiff.mp rfl
    rw [honly s h1 h2] at h3
    cases h3
    rw [List.mem_singleton] at hx
    subst hx
    exact absurd hx' hown

/-- A fingerprint, and the key id that goes with it. -/
def exAppointee : Str := "0123456789ABCDEF0123456789ABCDEF01234567".toList

example := C118_appointed_refuted Nat.log2 exZero 5
  (exRevKey [exRevSig 0x1f [.plain false (.revocationKey exAppointee 1 false)] exZeroId, exRevSig 0x20 [] (lastChars 16 exAppointee)] []) _
  [exRevObj 0x1f [.plain false (.revocationKey exAppointee 1 false)] exZeroId, exRevObj 0x20 [] (lastChars 16 exAppointee)] _ rfl rfl (exRevKey_ids _ _)
  (by
    intro s hs
    simp only [List.mem_cons, List.not_mem_nil, or_false] at hs
    rcases hs with rfl | rfl
    · exact ⟨⟨[exZeroId], rfl⟩, false, rfl⟩
    · exact ⟨⟨[lastChars 16 exAppointee], rfl⟩, false, rfl⟩)
  exAppointee ⟨_, List.mem_cons_self, .inr rfl, false, 1, false, List.mem_cons_self⟩ (by decide +kernel)
  (by
    intro s hs ht
    simp only [List.mem_cons, List.not_mem_nil, or_false] at hs
    rcases hs with rfl | rfl
    · exact absurd ht (by decide)
    · rfl)

/-- C118 (refuted): a key that has a subkey revocation is not read at all. -/
theorem C118_subkey_revocation_refuted (magic : Bytes → Str) (secret : Bool) (ps : List KPacket) (p : KPacket) (hp : p ∈ ps) (s : Sig) (hs : p.body = .sig s)
    (ht : s.sigType = revocationType (.sub 0)) : Raises (TKey.fromPackets magic secret ps) := by
  cases hk : TKey.fromPackets magic secret ps with
  | error e => exact ⟨e, rfl⟩
  | ok k =>
    exfalso
    unfold TKey.fromPackets at hk
    obtain ⟨_, hv, _⟩ := except_bind_eq_ok.mp hk
    obtain ⟨pk, priv, direct, uids, attrs, subs, he, hdir, hu, ha, hsub⟩ := (validateKey_iff secret _).mp hv
    have hm : KBody.sig s ∈ ps.map KPacket.body := List.mem_map.mpr ⟨p, hp, hs⟩
    have run : ∀ (types : List Nat) (a : Bool) (l : List KBody), SigRun types a l → KBody.sig s ∈ l → s.sigType ∈ types := by
      intro types a l h hm
      rcases h.1 _ hm with h | h
      · exact h
      · exact h.elim
    rw [he, List.mem_cons, List.mem_append, List.mem_append, List.mem_append] at hm
    rcases hm with hm | ((hm | hm) | hm) | hm
    · cases hm
    · have := run _ _ _ hdir.1 hm
      rw [ht] at this; simp [revocationType] at this
    · obtain ⟨gs, rfl, hgs⟩ := hu
      obtain ⟨l, hl, hm⟩ := List.mem_flatten.mp hm
      obtain ⟨u, body, rfl, hr⟩ := hgs l hl
      rcases List.mem_cons.mp hm with hm | hm
      · cases hm
      · have := run _ _ _ hr hm
        rw [ht] at this; simp [revocationType, certTypes] at this
    · obtain ⟨gs, rfl, hgs⟩ := ha
      obtain ⟨l, hl, hm⟩ := List.mem_flatten.mp hm
      obtain ⟨u, body, rfl, hr⟩ := hgs l hl
      rcases List.mem_cons.mp hm with hm | hm
      · cases hm
      · have := run _ _ _ hr hm
        rw [ht] at this; simp [revocationType, certTypes] at this
    · obtain ⟨⟨gs, rfl, hgs⟩, _⟩ := hsub
      obtain ⟨l, hl, hm⟩ := List.mem_flatten.mp hm
      obtain ⟨u, pr, body, rfl, _, hr⟩ := hgs l hl
      rcases List.mem_cons.mp hm with hm | hm
      · cases hm
      · have := run _ _ _ hr hm
        rw [ht] at this; simp [revocationType] at this

example := C118_subkey_revocation_refuted (fun _ => []) false
  [⟨.new, .key false false (mkPubKey 4 1000 1 none (.rsa 3233 17)) none⟩, ⟨.new, .uid ['A']⟩, ⟨.new, .key false true (mkPubKey 4 1000 1 none (.rsa 3233 17)) none⟩,
    ⟨.new, .sig (exRevSig 0x18 [] exZeroId)⟩, ⟨.new, .sig (exRevSig 0x28 [] exZeroId)⟩] ⟨.new, .sig (exRevSig 0x28 [] exZeroId)⟩ (by simp) _ rfl rfl

theorem fromPacket_type {f : HeaderFormat} {sg : Sig} {s : SigObj} (h : SigObj.fromPacket f sg = .ok s) : s.sigType = sg.sigType := by
  cases sg with
  | v3 v t a h' c i h2 vs =>
    simp only [SigObj.fromPacket] at h
    split at h
    · simp only [Except.ok.injEq] at h; rw [← h]; rfl
    · cases h
  | v4 v t a h' c i h2 vs =>
    simp only [SigObj.fromPacket] at h
    split at h
    · simp only [Except.ok.injEq] at h; rw [← h]; rfl
    · cases h

theorem counting_types {fl : FloorLog2} {now : Int} {types : List Nat} {all : List SigObj} : ∀ {l r : List SigObj},
    countingSigs fl now types all l = .ok r → (∀ s ∈ l, s.sigType ∉ types) → r = [] := by
  intro l
  induction l with
  | nil => intro r h _; cases h; rfl
  | cons s l ih =>
    intro r h hn
    have hc : sigCounts fl now types all s = .ok false := if_neg (hn s List.mem_cons_self)
    simp only [countingSigs, hc, except_bind_ok] at h
    obtain ⟨q, hq, h⟩ := except_bind_eq_ok.mp h
    cases h
    exact ih hq fun x hx => hn x (List.mem_cons_of_mem _ hx)

theorem selfSignatures_sub {own : Py (List Str)} : ∀ {l r : List SigObj}, selfSignatures own l = .ok r → ∀ s ∈ r, s ∈ l := by
  intro l
  induction l with
  | nil => intro r h s hs; cases h; cases hs
  | cons x l ih =>
    intro r h s hs
    unfold selfSignatures at h
    obtain ⟨o, _, h⟩ := except_bind_eq_ok.mp h
    obtain ⟨js, _, h⟩ := except_bind_eq_ok.mp h
    obtain ⟨q, hq, h⟩ := except_bind_eq_ok.mp h
    cases h
    split at hs
    · rcases List.mem_cons.mp hs with rfl | hs
      · exact List.mem_cons_self
      · exact List.mem_cons_of_mem _ (ih hq s hs)
    · exact List.mem_cons_of_mem _ (ih hq s hs)

/-- C118 (refuted): so no subkey of a key that was read is ever revoked. -/
theorem C118_subkeys_never_refuted (magic : Bytes → Str) (secret : Bool) (ps : List KPacket) (hnt : ∀ p ∈ ps, ¬ IsTrust p.body) (k : TKey)
    (hk : TKey.fromPackets magic secret ps = .ok k) (fl : FloorLog2) (H : Digest) (now : Int) (n : Nat) :
    k.revoked fl H now (.sub n) ≠ .ok true := by
  intro h
  unfold TKey.revoked at h
  obtain ⟨l, hl, h⟩ := except_bind_eq_ok.mp h
  unfold TKey.revocations at hl
  split at hl
  · cases hl
  · rename_i g hg
    obtain ⟨sigs, hs, hl⟩ := except_bind_eq_ok.mp hl
    unfold signaturesOf at hl
    obtain ⟨q, hq, hl⟩ := except_bind_eq_ok.mp hl
    obtain ⟨⟨blocks, hps, hbl, hparts⟩, _⟩ := C108_signatures_attached_partial magic secret ps hnt k hk
    have hgm : g ∈ k.primary :: (k.uids ++ k.attrs ++ k.subs) := by
      have := List.mem_of_getElem? hg
      simp [this]
    obtain ⟨b, hb, hpart⟩ := forall₂_mem_right hparts g hgm
    have : l = [] := by
      refine counting_types hl fun s hsq ht => ?_
      have hsm := selfSignatures_sub hq s hsq
      have h2 := (mapM_ok_forall₂ hs)
      obtain ⟨e, he, heq⟩ := forall₂_mem_right h2 s hsm
      obtain ⟨p, hp, hpe⟩ := forall₂_mem_right hpart.2 e he
      have hpp : p ∈ ps := by
        rw [hps]
        exact List.mem_flatten.mpr ⟨_, List.mem_map.mpr ⟨b, hb, rfl⟩, List.mem_cons_of_mem _ hp⟩
      have hty := (hbl b hb).2 p hp
      cases hbd : p.body with
      | sig sg =>
        have hit : e.item = .sig sg := by
          have := hpe.2; rw [hbd] at this; exact this
        have hst : s.sigType = sg.sigType := by
          unfold KElem.sigObj at heq
          rw [hit] at heq
          exact fromPacket_type heq
        have hr : Raises (TKey.fromPackets magic secret ps) :=
          C118_subkey_revocation_refuted magic secret ps p hpp sg hbd (by
            rw [← hst]; exact (revTypes_eq (.sub n) _).mp ht)
        rw [hk] at hr
        obtain ⟨_, hr⟩ := hr
        cases hr
      | key a b c d => rw [hbd] at hty; cases a <;> cases b <;> cases hty
      | uid _ => rw [hbd] at hty; cases hty
      | attr _ => rw [hbd] at hty; cases hty
      | trust _ => rw [hbd] at hty; cases hty
      | other t =>
        have := hpe.2; rw [hbd] at this; exact this
    subst this
    cases h

example := C118_subkeys_never_refuted (fun _ => []) false
  [⟨.new, .key false false (mkPubKey 4 1000 1 none (.rsa 3233 17)) none⟩, ⟨.new, .uid ['A']⟩, ⟨.new, .key false true (mkPubKey 4 1001 1 none (.rsa 3233 17)) none⟩,
    ⟨.new, .sig (exRevSig 0x18 [] exZeroId)⟩] (by intro p hp h; simp only [List.mem_cons, List.not_mem_nil, or_false] at hp; rcases hp with rfl | rfl | rfl | rfl <;> exact h)
  (exRevKey [] []) rfl Nat.log2 exZero 5 0

theorem old_selfSignatures {own : Py (List Str)} {s : SigObj} (hv : s.version = 2 ∨ s.version = 3) : ∀ {l r : List SigObj}, s ∈ l →
    selfSignatures own l ≠ .ok r := by
  intro l
  induction l with
  | nil => intro r hm; cases hm
  | cons x l ih =>
    intro r hm hq
    unfold selfSignatures at hq
    obtain ⟨o, _, hq⟩ := except_bind_eq_ok.mp hq
    obtain ⟨js, hjs, hq⟩ := except_bind_eq_ok.mp hq
    obtain ⟨q', hq', _⟩ := except_bind_eq_ok.mp hq
    rcases List.mem_cons.mp hm with rfl | hm
    · simp only [SigObj.issuers, if_pos hv] at hjs
      cases hjs
    · exact ih hm hq'

/-- C118 (refuted): one signature of version 2 or 3 on a part, and the question raises. -/
theorem C118_old_signature_raises (fl : FloorLog2) (H : Digest) (now : Int) (k : TKey) (at' : Place) (g : KGroup) (sigs : List SigObj)
    (hg : k.part at' = some g) (hs : groupSigs g = .ok sigs) (s : SigObj) (hm : s ∈ sigs) (hv : s.version = 2 ∨ s.version = 3) :
    Raises (k.revoked fl H now at') := by
  cases h : k.revoked fl H now at' with
  | error e => exact ⟨e, rfl⟩
  | ok b =>
    exfalso
    simp only [TKey.revoked, TKey.revocations, hg, hs, except_bind_ok, signaturesOf] at h
    obtain ⟨l, hl, h⟩ := except_bind_eq_ok.mp h
    obtain ⟨q, hq, hl⟩ := except_bind_eq_ok.mp hl
    exact old_selfSignatures hv hm hq

example := C118_old_signature_raises Nat.log2 exZero 5 (exRevKey [.v3 3 0x20 1 2 1000 exZeroId [1, 2] [some 77]] []) .primary _ _ rfl rfl _ List.mem_cons_self (.inr rfl)

/-! ### The self-signatures in force -/

theorem selfTypes_eq (at' : Place) : at'.selfTypes = ownTypes at' := by cases at' <;> rfl

/-- C118 (part that holds): where nothing is revoked, the current self-signatures of a part are those of its own types, by the key itself, that have not expired. -/
theorem C118_current_partial (fl : FloorLog2) (H : Digest) (now : Int) (k : TKey) (at' : Place) (g : KGroup) (sigs : List SigObj) (ids : List Str)
    (hg : k.part at' = some g) (hs : groupSigs g = .ok sigs) (hids : k.ownIds fl H = .ok ids) (hd : ∀ s ∈ sigs, Dated now s)
    (hn : ∀ s ∈ sigs, s.sigType ∉ revocationTypes) :
    ∃ r, k.currentSelf fl H now at' = .ok r ∧ r.Sublist sigs ∧
      ∀ s, s ∈ r ↔ s ∈ sigs ∧ s.sigType ∈ ownTypes at' ∧ IssuedBy ids s ∧ s.expired now = .ok false := by
  obtain ⟨r, hr, hsub, hm⟩ := selfSignatures_mem (own := ids) (l := sigs) fun s h => (hd s h).1
  obtain ⟨q, hq, hqs, hqm⟩ := countingSigs_mem (fl := fl) (now := now) (types := at'.selfTypes) (all := sigs) (l := r)
    (fun s _ _ => C69_no_revocation fl sigs s hn) (fun s h => (hd s (hsub.subset h)).2)
  refine ⟨q, ?_, hqs.trans hsub, ?_⟩
  · simp only [TKey.currentSelf, hg, hs, signaturesOf, hids, hr, hq, except_bind_ok]
  · intro s
    rw [hqm, hm, selfTypes_eq]
    tauto

example := C118_current_partial Nat.log2 exZero 5 (exRevKey [] [exRevSig 0x13 [] exZeroId]) (.uid 0) _ [exRevObj 0x13 [] exZeroId] _ rfl rfl
  (exRevKey_ids _ _) (by intro s hs; rw [List.mem_singleton.mp hs]; exact ⟨⟨[exZeroId], rfl⟩, false, rfl⟩)
  (by intro s hs; rw [List.mem_singleton.mp hs]; decide)

theorem counting_raises {fl : FloorLog2} {now : Int} {types : List Nat} {all : List SigObj} {s : SigObj} (h : Raises (sigCounts fl now types all s)) :
    ∀ {l r : List SigObj}, s ∈ l → countingSigs fl now types all l ≠ .ok r := by
  intro l
  induction l with
  | nil => intro r hm; cases hm
  | cons x l ih =>
    intro r hm hq
    unfold countingSigs at hq
    obtain ⟨b, hb, hq⟩ := except_bind_eq_ok.mp hq
    obtain ⟨q, hq', _⟩ := except_bind_eq_ok.mp hq
    rcases List.mem_cons.mp hm with rfl | hm
    · obtain ⟨e, he⟩ := h
      rw [hb] at he
      cases he
    · exact ih hm hq'

/-- C118 (refuted): a user id whose certification was renewed and then revoked has no list of current self-signatures: asking for it raises. -/
theorem C118_current_raises (fl : FloorLog2) (H : Digest) (now : Int) (k : TKey) (n : Nat) (g : KGroup) (ids : List Str) (a b r : SigObj)
    (hg : k.part (.uid n) = some g) (hs : groupSigs g = .ok [a, b, r]) (hids : k.ownIds fl H = .ok ids) (id : Str) (hid : id ∈ ids)
    (ha : a.sigType ∈ ownTypes (.uid n)) (hb : b.sigType ∈ ownTypes (.uid n)) (hr : r.sigType = revocationType (.uid n))
    (hi : ∀ s ∈ [a, b, r], s.issuers = .ok [id]) (ht : r.subs 31 = []) : Raises (k.currentSelf fl H now (.uid n)) := by
  have nota : ∀ t, t ∈ ownTypes (.uid n) → t ∉ revocationTypes ∧ t ∈ [0x1f, 0x18, 0x10, 0x11, 0x12, 0x13] := by
    intro t ht
    simp only [ownTypes, revocationTypes, List.mem_cons, List.not_mem_nil, or_false] at ht ⊢
    omega
  have hra : Raises (sigRevoked fl ([a, b] ++ r :: []) a) :=
    C69_renewed_certification_raises fl [a, b] [] r a [id] (nota _ ha).2 (by rw [hr]; simp [revocationType, revocationTypes])
      (by intro s hs; simp only [List.mem_cons, List.not_mem_nil, or_false] at hs; rcases hs with rfl | rfl; exacts [(nota _ ha).1, (nota _ hb).1])
      (hi r (by simp)) ht (fun x hx => ⟨[id], hi x (by simp only [List.append_nil, List.mem_cons, List.not_mem_nil, or_false] at hx ⊢; tauto)⟩)
      a b (by simp) ⟨_, hi a (by simp), id, by simp, by simp⟩ ⟨_, hi b (by simp), id, by simp, by simp⟩
  have hc : Raises (sigCounts fl now (Place.uid n).selfTypes [a, b, r] a) := by
    obtain ⟨e, he⟩ := hra
    refine ⟨e, ?_⟩
    unfold sigCounts
    rw [if_pos (by rw [selfTypes_eq]; exact ha)]
    have he' : sigRevoked fl [a, b, r] a = .error e := he
    rw [he']
    rfl
  obtain ⟨q, hq, _, hm⟩ := selfSignatures_mem (own := ids) (l := [a, b, r]) fun s h => ⟨_, hi s h⟩
  cases h : k.currentSelf fl H now (.uid n) with
  | error e => exact ⟨e, rfl⟩
  | ok l =>
    exfalso
    simp only [TKey.currentSelf, hg, hs, signaturesOf, hids, hq, except_bind_ok] at h
    exact counting_raises hc ((hm a).mpr ⟨by simp, _, hi a (by simp), id, by simp, hid⟩) h

example := C118_current_raises Nat.log2 exZero 5 (exRevKey [] [exRevSig 0x13 [] exZeroId, exRevSig 0x13 [] exZeroId, exRevSig 0x30 [] exZeroId]) 0 _ _
  (exRevObj 0x13 [] exZeroId) (exRevObj 0x13 [] exZeroId) (exRevObj 0x30 [] exZeroId) rfl rfl (exRevKey_ids _ _) exZeroId (by simp) (by decide) (by decide) rfl
  (by intro s hs; simp only [List.mem_cons, List.not_mem_nil, or_false] at hs; rcases hs with rfl | rfl | rfl <;> rfl) rfl

/-! ### Why -/

/-- C118 (refuted): the reason of a revocation is never given. -/
theorem C118_reason_refuted (p : Part) (r : Option Scalar) (h : p.revocationReason = .ok r) : r = none := by
  unfold Part.revocationReason Part.selfsig at h
  split at h
  · obtain ⟨o, _, h⟩ := except_bind_eq_ok.mp h
    cases o with
    | none => cases h; rfl
    | some i =>
      simp only at h
      split at h
      · cases h; rfl
      · rename_i s _
        simp only [TrustObj.revocationReason, trustGet] at h
        generalize s.subs 5 = l at h
        cases l with
        | nil => cases h; rfl
        | cons x l => cases h; rfl
  · cases h

example := C118_reason_refuted ⟨4, [0x1f], [0x20], [exZeroId], [exRevObj 0x20 [.plain false (.revocationReason 2 "stolen".toList)] exZeroId]⟩ none (by decide +kernel)

/-- C118 (refuted): whatever the signatures say, nothing is given as the reason. -/
theorem C118_no_reason_refuted (p : Part) (hv : 4 ≤ p.version) (hl : ∀ s ∈ p.sigs, Readable s) : p.revocationReason = .ok none := by
  rcases C42_last_listed p true hl with ⟨h1, h2⟩ | ⟨n, s, h1, h2, h3, h4⟩
  · simp only [Part.revocationReason, Part.selfsig, if_pos (show p.version ≥ 4 from hv), h2, except_bind_ok]
    rfl
  · simp only [Part.revocationReason, Part.selfsig, if_pos (show p.version ≥ 4 from hv), h3, except_bind_ok, h1, TrustObj.revocationReason, trustGet]
    generalize s.subs 5 = l
    cases l with
    | nil => rfl
    | cons x l => rfl

example := C118_no_reason_refuted ⟨4, [0x1f], [0x20], [exZeroId], [exRevObj 0x20 [.plain false (.revocationReason 2 "stolen".toList)] exZeroId]⟩ (by decide)
  (by intro s hs; rw [List.mem_singleton.mp hs]; exact ⟨⟨[exZeroId], rfl⟩, _, rfl⟩)

/-- C118 (part that holds): the code of a revocation is that of the signature listed last among those that revoke the part. -/
theorem C118_code_partial (p : Part) (hv : 4 ≤ p.version) (hl : ∀ s ∈ p.sigs, Readable s) :
    ((∀ s ∈ p.sigs, ¬SelfSig p.revTypes p.own s) ∧ p.revocationCode = .ok none) ∨
    ∃ (n : Nat) (s : SigObj), p.sigs[n]? = some s ∧ SelfSig p.revTypes p.own s ∧ (∀ (m : Nat) (s' : SigObj), n < m → p.sigs[m]? = some s' → ¬SelfSig p.revTypes p.own s') ∧
      ∀ c, s.revocationCode = .ok c → p.revocationCode = .ok c := by
  rcases C42_last_listed p true hl with ⟨h1, h2⟩ | ⟨n, s, h1, h2, h3, h4⟩
  · refine .inl ⟨h1, ?_⟩
    simp only [Part.revocationCode, Part.selfsig, if_pos (show p.version ≥ 4 from hv), h2, except_bind_ok]
    rfl
  · refine .inr ⟨n, s, h1, h2, h4, ?_⟩
    intro c hc
    simp only [Part.revocationCode, Part.selfsig, if_pos (show p.version ≥ 4 from hv), h3, except_bind_ok, h1, hc]
    rfl

example := C118_code_partial ⟨4, [0x1f], [0x20], [exZeroId], [exRevObj 0x20 [.plain false (.revocationReason 2 "stolen".toList)] exZeroId]⟩ (by decide)
  (by intro s hs; rw [List.mem_singleton.mp hs]; exact ⟨⟨[exZeroId], rfl⟩, _, rfl⟩)

/-- C118 (refuted): a code is given also for a key that is not revoked, its revocation having expired. -/
theorem C118_expired_code_refuted (fl : FloorLog2) (H : Digest) (now : Int) (k : TKey) (at' : Place) (p : Part) (hp : k.signedPart fl H at' = .ok p)
    (hv : 4 ≤ p.version) (s : SigObj) (hs : p.sigs = [s]) (hr : Readable s) (hi : SelfSig p.revTypes p.own s) (he : s.expired now = .ok true) (c : Nat)
    (hc : s.revocationCode = .ok (some c)) : k.revoked fl H now at' = .ok false ∧ p.revocationCode = .ok (some c) := by
  unfold TKey.signedPart at hp
  split at hp
  · cases hp
  · rename_i g hg
    obtain ⟨sigs, hs1, hp⟩ := except_bind_eq_ok.mp hp
    obtain ⟨own, ho, hp⟩ := except_bind_eq_ok.mp hp
    cases hp
    simp only at hs hv hi
    subst hs
    constructor
    · obtain ⟨b, hb, hiff⟩ := C118_revoked_iff_partial fl H now k at' g [s] own hg hs1 ho (by
        intro x hx; rw [List.mem_singleton.mp hx]; exact ⟨hr.1, _, he⟩)
      rw [hb]
      cases b with
      | false => rfl
      | true =>
        obtain ⟨x, hx, _, _, h⟩ := hiff.mp rfl
        rw [List.mem_singleton.mp hx, he] at h
        cases h
    · rcases C118_code_partial ⟨g.1.partVersion, at'.selfTypes, at'.revTypes, own, [s]⟩ hv (by
        intro x hx; rw [List.mem_singleton.mp hx]; exact hr) with ⟨h, _⟩ | ⟨n, s', h1, _, _, h4⟩
      · exact absurd hi (h s (by simp))
      · have : s' = s := by
          have := List.mem_of_getElem? h1
          exact List.mem_singleton.mp this
        subst this
        exact h4 _ hc

/-- A revocation of the year 1970, for two thousand seconds. -/
def exLapsed : List Sub := [.plain false (.expiration 2000), .plain false (.revocationReason 1 [])]

example : (exRevKey [exRevSig 0x20 exLapsed exZeroId] []).revoked Nat.log2 exZero 1700000000000000 .primary = .ok false ∧
    Part.revocationCode ⟨4, [0x1f], [0x20], [exZeroId, exZeroId], [exRevObj 0x20 exLapsed exZeroId]⟩ = .ok (some 1) :=
  C118_expired_code_refuted Nat.log2 exZero 1700000000000000 (exRevKey [exRevSig 0x20 exLapsed exZeroId] []) .primary
    ⟨4, [0x1f], [0x20], [exZeroId, exZeroId], [exRevObj 0x20 exLapsed exZeroId]⟩
    (by simp only [TKey.signedPart, TKey.part, exRevKey_ids]; rfl) (by decide) _ rfl ⟨⟨[exZeroId], rfl⟩, _, rfl⟩
    ⟨⟨[exZeroId], rfl, exZeroId, by simp, by simp⟩, by decide⟩ (by decide +kernel) 1 rfl

/-- C118 (part that holds): user ids and images have attributes like keys of version 4: the code of the one revocation of a user id is given. -/
theorem C118_id_code_partial (fl : FloorLog2) (H : Digest) (k : TKey) (at' : Place) (g : KGroup) (hg : k.part at' = some g)
    (hid : (∃ u, g.1.item = .uid u) ∨ ∃ a, g.1.item = .attr a) (s : SigObj) (hs : groupSigs g = .ok [s]) (own : List Str) (ho : k.ownIds fl H = .ok own)
    (hr : Readable s) (hi : SelfSig at'.revTypes own s) (c : Nat) (hc : s.revocationCode = .ok (some c)) :
    ∃ p, k.signedPart fl H at' = .ok p ∧ p.sigs = [s] ∧ p.revocationCode = .ok (some c) := by
  have hv : g.1.partVersion = 4 := by
    unfold KElem.partVersion KElem.pubKey
    rcases hid with ⟨u, h⟩ | ⟨a, h⟩ <;> rw [h]
  refine ⟨⟨4, at'.selfTypes, at'.revTypes, own, [s]⟩, ?_, rfl, ?_⟩
  · unfold TKey.signedPart
    simp only [hg, hs, ho, except_bind_ok, hv]
    rfl
  · rcases C118_code_partial ⟨4, at'.selfTypes, at'.revTypes, own, [s]⟩ (Nat.le_refl 4) (by
      intro x hx; rw [List.mem_singleton.mp hx]; exact hr) with ⟨h, _⟩ | ⟨n, s', h1, _, _, h4⟩
    · exact absurd hi (h s (by simp))
    · have : s' = s := List.mem_singleton.mp (List.mem_of_getElem? h1)
      subst this
      exact h4 _ hc

example := C118_id_code_partial Nat.log2 exZero (exRevKey [] [exRevSig 0x30 exLapsed exZeroId]) (.uid 0) _ rfl (.inl ⟨_, rfl⟩) (exRevObj 0x30 exLapsed exZeroId) rfl _
  (exRevKey_ids _ _) ⟨⟨[exZeroId], rfl⟩, _, rfl⟩ ⟨⟨[exZeroId], rfl, exZeroId, by simp, by simp⟩, by decide⟩ 1 rfl

/-- C118 (refuted): of two signatures that each appoint a revoker, as keys have them, only the one listed last is consulted. -/
theorem C118_revokers_refuted (p : Part) (hv : 4 ≤ p.version) (a b : SigObj) (h : p.sigs = [a, b]) (ha : Readable a) (hb : Readable b)
    (hi : SelfSig p.selfTypes p.own b) (l : List RevInfo) (hl : b.revocationKeys = .ok l) : p.revocationKeys = .ok l := by
  have := C42_older_chosen_refuted p a b h ha hb hi
  simp only [Part.revocationKeys, Part.selfsig, if_pos (show p.version ≥ 4 from hv), this, except_bind_ok, h]
  simp only [List.getElem?_cons_succ, List.getElem?_cons_zero, hl]
  rfl

example := C118_revokers_refuted ⟨4, [0x1f], [0x20], [exZeroId], [exRevObj 0x1f [.plain false (.revocationKey exAppointee 1 false)] exZeroId,
    exRevObj 0x1f [.plain false (.revocationKey exAppointee.reverse 17 true)] exZeroId]⟩ (by decide) _ _ rfl ⟨⟨[exZeroId], rfl⟩, _, rfl⟩ ⟨⟨[exZeroId], rfl⟩, _, rfl⟩
  ⟨⟨[exZeroId], rfl, exZeroId, by simp, by simp⟩, by decide⟩ [⟨17, exAppointee.reverse, true⟩] rfl

end Pgp.Props
