import Verif.Model.Unlock
import Verif.Spec.Unlock
import Verif.Props.SecretKey
import Verif.Props.SecretFile
import Verif.Props.Certify
/-
Property theorems C110: a secret key file is opened by its passphrase.
-/
namespace Pgp.Props
open Spec

/-- The cipher key, as the specification has it. -/
theorem spec_key (H : Digest) (hH : DigestOk H) (sp : Specifier) (hw : sp.wellFormed) (sym hl kl n : Nat) (pass : Bytes) (h1 : digestOctets sp.hash = some hl)
    (h2 : cipherKeyOctets sym = some kl) (h10 : sym ≠ 10) (hn : kl ≤ n * hl) (hc : sp.covers pass) :
    (specObj sym sp).toKey H pass = .ok (some (derivedKey (H sp.hash) (sp.string pass) n kl)) ∧ (derivedKey (H sp.hash) (sp.string pass) n kl).length = kl := by
  cases sp with
  | simple h => exact C20_simple_partial H hH h.toNat sym pass hl kl h1 h2 h10 n hn
  | salted h s => exact C20_salted_partial H hH h.toNat sym s pass hw hl kl h1 h2 h10 n hn
  | iterated h s c =>
    have : max (countValue c.toNat) (s ++ pass).length = countValue c.toNat := max_eq_left hc
    simp only [Specifier.string, this]
    exact C20_iterated_partial H hH h.toNat sym s pass hw _ hl kl h1 h2 h10 n hn

/-- The octets before the usage octet. -/
theorem wire_parse {fl : Nat → Nat} {good : Nat → Prop} (hg : GoodInts fl good) {v a : UInt8} {t : Bytes} {m : KeyMaterial} (hv : 4 ≤ v.toNat) (ht : t.length = 4)
    (ha : m.fits a.toNat) (hm : ∀ i ∈ m.ints, good i) (rest : Bytes) :
    parsePubKey ((v :: t ++ a :: (m.ints.map mpi).flatten) ++ rest) =
      .ok ((v :: t ++ a :: (m.ints.map mpi).flatten).length, mkPubKey v.toNat (beNat t) a.toNat none m) := by
  have hd : daysBytes v.toNat none = .ok [] := by
    unfold daysBytes; rw [if_neg (by omega)]
  have hc := publicContent_wire (fl := fl) ht hd ha (fun i hi => (hg i (hm i hi)).2)
  rw [List.append_nil] at hc
  have hlt : beNat t < 2 ^ 32 := by have := beNat_lt t; rw [ht] at this; omega
  obtain ⟨e, h1, h2⟩ := pubKey_roundtrip (fl := fl) (created := beNat t) (.inr ⟨hv, v.toNat_lt, rfl⟩) hlt ha
    (fun i hi => (hg i (hm i hi)).1)
  rw [hc] at h1
  cases h1
  exact h2 rest

/-- What is read from a secret key packet. -/
theorem secret_parse {fl : Nat → Nat} {good : Nat → Prop} (hg : GoodInts fl good) {v a s : UInt8} {t : Bytes} {m : KeyMaterial} (hv : 4 ≤ v.toNat) (ht : t.length = 4)
    (ha : m.fits a.toNat) (hm : ∀ i ∈ m.ints, good i) (u : UInt8) (hu : u = 254 ∨ u = 255) (sp : Specifier) (hw : sp.wellFormed) (iv enc : Bytes)
    (hb : blockOctets s.toNat = some iv.length) :
    parseSecKey ((v :: t ++ a :: (m.ints.map mpi).flatten) ++ (u :: s :: sp.octets ++ iv ++ enc)) =
      .ok ⟨mkPubKey v.toNat (beNat t) a.toNat none m, specObj s.toNat sp, s.toNat, iv, enc, u = 255, u = 254⟩ := by
  have h0 := wire_parse (fl := fl) hg hv ht ha hm (u :: s :: sp.octets ++ iv ++ enc)
  generalize (v :: t ++ a :: (m.ints.map mpi).flatten) = pub at h0 ⊢
  generalize hdat : pub ++ (u :: s :: sp.octets ++ iv ++ enc) = data at h0 ⊢
  have d0 : data.drop pub.length = u :: s :: (sp.octets ++ (iv ++ enc)) := by rw [← hdat, List.drop_left]; simp
  have d1 := drop_succ_of_drop d0
  have d2 := drop_succ_of_drop d1
  have d3 := drop_add_of_drop d2
  have d4 := drop_add_of_drop d3
  have hb' : blockLengths s.toNat = some iv.length := by rw [blockLengths_eq]; exact hb
  have hu0 : ¬u = 0 := by rcases hu with rfl | rfl <;> decide
  have hiv : slice data (pub.length + 1 + 1 + sp.octets.length) (pub.length + 1 + 1 + sp.octets.length + iv.length) = iv := slice_of_drop d3 rfl
  simp only [parseSecKey, h0, except_bind_ok, parseSecretPart, idx_of_drop d0, idx_of_drop d1, if_neg hu0, if_pos hu, spec_read sp hw s.toNat d2, secretTail, hb', hiv, d4]

/-- The private values of the object made from a protected packet. -/
theorem protected_values {S : BlockCiphers} {H : Digest} (hH : DigestOk H) {supported : Nat → Prop}
    (hS : ∀ sym bl kl key, supported sym → blockOctets sym = some bl → cipherKeyOctets sym = some kl → key.length = kl → Usable S sym bl key)
    (h10 : ¬ supported 10) {fl : Nat → Nat} {good : Nat → Prop} (hg : GoodInts fl good) {pass : Bytes} {alg sym : Nat} {sp : Specifier} {numbers : List Nat} {c : Bytes}
    (h : ProtectedKey S.enc H good pass alg sym sp numbers c) (hs : supported sym) (hc : sp.covers pass) :
    ∃ k version created m priv, parseSecKey c = .ok k ∧ k.pub = mkPubKey version created alg none m ∧ m.fits alg ∧ PrivateFor m priv numbers ∧
      (SecObj.fromPacket k).values S H pass = .ok priv := by
  obtain ⟨v, a, s, t, m, priv, iv, enc, hl, kl, n, hv, ht, rfl, hf, hgi, hp, hpi, rfl, hw, hd, hk, hn, hb, ht2, rfl⟩ := h
  have h10' : s.toNat ≠ 10 := fun h => h10 (h ▸ hs)
  obtain ⟨k1, k2⟩ := spec_key H hH sp hw s.toNat hl kl n pass hd hk h10' hn hc
  have u := hS _ _ _ _ hs hb hk k2
  refine ⟨_, v.toNat, beNat t, m, priv, secret_parse hg hv ht hf hgi 254 (.inl rfl) sp hw iv enc hb, rfl, hf, hp, ?_⟩
  have hv' : (mkPubKey v.toNat (beNat t) a.toNat none m).version = v.toNat := by cases m <;> rfl
  have := C50_private_values_recovered S H (hH 2 20 rfl) v.toNat s.toNat iv.length hv _ iv enc u rfl priv hpi ht2
  simp only [SecObj.values, SecObj.cipherKey, SecObj.fromPacket, k1, except_bind_ok, hv']
  exact this

/-- The object is unlocked and signs with the numbers of the key. -/
theorem unlock_numbers {S : BlockCiphers} {H : Digest} {pass : Bytes} {k : SecKey} {version created alg : Nat} {m : KeyMaterial} {priv numbers : List Nat}
    (hk : k.pub = mkPubKey version created alg none m) (hf : m.fits alg) (hp : PrivateFor m priv numbers) (hv : (SecObj.fromPacket k).values S H pass = .ok priv) :
    ((SecObj.fromPacket k).unlock S H pass).2 = .ok () ∧ ((SecObj.fromPacket k).unlock S H pass).1.locked = false ∧
      (alg ≠ 2 → ((SecObj.fromPacket k).unlock S H pass).1.keyNumbers = .ok numbers) ∧
      (alg = 2 → ((SecObj.fromPacket k).unlock S H pass).1.keyNumbers = .error (.pgp "UnsupportedPublicKeyAlgorithm")) := by
  obtain ⟨pub, s2k, sym, iv, enc, ck, hs⟩ := k
  simp only at hk
  subst hk
  simp only [SecObj.unlock, hv]
  cases hp with
  | rsa n e d p q u =>
    rcases hf with rfl | rfl | rfl
    · exact ⟨rfl, rfl, fun _ => rfl, fun h => absurd h (by decide)⟩
    · exact ⟨rfl, rfl, fun h => absurd rfl h, fun _ => rfl⟩
    · exact ⟨rfl, rfl, fun _ => rfl, fun h => absurd h (by decide)⟩
  | dsa p q g y x =>
    cases hf
    exact ⟨rfl, rfl, fun _ => rfl, fun h => absurd h (by decide)⟩
  | elgamal p g y x =>
    rcases hf with rfl | rfl
    · exact ⟨rfl, rfl, fun _ => rfl, fun h => absurd h (by decide)⟩
    · exact ⟨rfl, rfl, fun _ => rfl, fun h => absurd h (by decide)⟩

/-! ### The packets of a key file -/

/-- Octets made of packets that are all `P`. -/
def Made (P : RawPacket → Prop) (b : Bytes) : Prop :=
  ∃ (rs : List RawPacket) (es : List Bytes), (∀ r ∈ rs, Expressible r ∧ P r) ∧ rs.mapM (Packet.toBytes 1) = .ok es ∧ es.flatten = b

theorem made_append {P : RawPacket → Prop} {b b' : Bytes} (h : Made P b) (h' : Made P b') : Made P (b ++ b') := by
  obtain ⟨rs, es, h1, h2, rfl⟩ := h
  obtain ⟨rs', es', h1', h2', rfl⟩ := h'
  exact ⟨rs ++ rs', es ++ es', fun r hr => (List.mem_append.mp hr).elim (h1 r) (h1' r), mapM_append_ok h2 h2', by simp⟩

theorem made_packet {P : RawPacket → Prop} {F : HeaderFormat → Prop} {type : Nat} {C : Bytes → Prop} (hP : ∀ f c, C c → P ⟨f, type, c⟩) {b : Bytes}
    (h : PacketOf F type C b) : Made P b := by
  obtain ⟨f, hd, c, hf, hc, hh, rfl⟩ := h
  obtain ⟨h5, h6⟩ := header_written hh
  exact ⟨[⟨f, type, c⟩], [hd ++ c], by simpa using ⟨h6, hP f c hc⟩, by simp [h5], by simp⟩

theorem made_cat {P : RawPacket → Prop} {Q : Bytes → Prop} (hP : ∀ b, Q b → Made P b) {b : Bytes} (h : Cat Q b) : Made P b := by
  obtain ⟨bs, hb, rfl⟩ := h
  induction bs with
  | nil => exact ⟨[], [], by simp, rfl, rfl⟩
  | cons x bs ih => exact made_append (hP x (hb x List.mem_cons_self)) (ih fun q hq => hb q (List.mem_cons_of_mem _ hq))

/-- The key packets of a key file are of the kind the file is made of. -/
theorem file_packets {primary sub : Nat} {K : Bytes → Prop} {magic : Bytes → Str} {F : HeaderFormat → Prop} {good : Nat → Prop} {b : Bytes}
    (h2 : primary ≠ 2 ∧ primary ≠ 13 ∧ primary ≠ 17 ∧ sub ≠ 2 ∧ sub ≠ 13 ∧ sub ≠ 17)
    (h : KeyFileOf primary sub K magic F good b) : Made (fun r => r.type = primary ∨ r.type = sub → K r.content) b := by
  obtain ⟨k, d, u, a, s, hk, hd, hu, ha, hs, rfl⟩ := h
  obtain ⟨a1, a2, a3, b1, b2, b3⟩ := h2
  have sig : ∀ {types : List Nat} {x : Bytes}, SigPacket F good types x → Made (fun r => r.type = primary ∨ r.type = sub → K r.content) x := fun hx =>
    made_packet (fun f c _ h => h.elim (fun h => absurd h.symm a1) fun h => absurd h.symm b1) hx
  have cert : ∀ {t : Nat} {C : Bytes → Prop} {x : Bytes}, t ≠ primary → t ≠ sub → Certified F good (PacketOf F t C) x →
      Made (fun r => r.type = primary ∨ r.type = sub → K r.content) x := by
    rintro t C x n1 n2 ⟨y, z, hy, hz, rfl⟩
    exact made_append (made_packet (fun f c _ h => h.elim (fun h => absurd h n1) fun h => absurd h n2) hy) (made_cat (fun _ => sig) hz)
  refine made_append (made_packet (fun f c hc _ => hc) hk) (made_append (made_append (made_append (made_cat (fun _ => sig) hd)
    (made_cat (fun _ => cert a2.symm b2.symm) hu)) (made_cat (fun _ => cert a3.symm b3.symm) ha)) (made_cat ?_ hs))
  rintro x ⟨y, z, w, hy, hz, hw, rfl⟩
  exact made_append (made_packet (fun f c hc _ => hc) hy) (made_append (sig hz) (made_cat (fun _ => sig) hw))

theorem file_mono {primary sub : Nat} {K K' : Bytes → Prop} {magic : Bytes → Str} {F : HeaderFormat → Prop} {good : Nat → Prop} {b : Bytes}
    (hK : ∀ c, K c → K' c) (h : KeyFileOf primary sub K magic F good b) : KeyFileOf primary sub K' magic F good b := by
  have pk : ∀ {t : Nat} {x : Bytes}, PacketOf F t K x → PacketOf F t K' x := by
    rintro t x ⟨f, hd, c, h1, h2, h3⟩
    exact ⟨f, hd, c, h1, hK c h2, h3⟩
  obtain ⟨k, d, u, a, s, hk, hd, hu, ha, ⟨bs, hb, rfl⟩, rfl⟩ := h
  refine ⟨k, d, u, a, _, pk hk, hd, hu, ha, ⟨bs, fun p hp => ?_, rfl⟩, rfl⟩
  obtain ⟨x, y, z, h1, h2⟩ := hb p hp
  exact ⟨x, y, z, pk h1, h2⟩

/-! ### The objects of a key file -/

/-- A packet read as a secret key packet gives this object. -/
def ObjectOf (r : RawPacket) (o : SecObj) : Prop := ∃ k, parseSecKey r.content = .ok k ∧ o = SecObj.fromPacket k

theorem object_of {magic : Bytes → Str} {F : HeaderFormat → Prop} {fl : Nat → Nat} {good : Nat → Prop} {r : RawPacket} {f : HeaderFormat} {isSub : Bool} {key : PubKey}
    {priv : Option SecPart} (h : Holds magic F fl good r ⟨f, .key true isSub key priv⟩) {e : KElem} (he : ElementOf magic ⟨f, .key true isSub key priv⟩ e) :
    ∃ o, e.secObj = some o ∧ ObjectOf r o := by
  have ht : ¬ (r.type = 6 ∨ r.type = 14) ∧ (r.type = 5 ∨ r.type = 7) := by
    have := h.2.1
    unfold KPacket.raw at this
    obtain ⟨c, _, this⟩ := except_bind_eq_ok.mp this
    cases this
    cases isSub <;> simp [KBody.type]
  have := h.1
  unfold readPacket readBody at this
  rw [dif_neg ht.1, dif_pos ht.2] at this
  obtain ⟨b', hb', this⟩ := except_bind_eq_ok.mp this
  cases this
  obtain ⟨k, hk, hb'⟩ := except_bind_eq_ok.mp hb'
  cases hb'
  obtain ⟨_, he⟩ := he
  simp only at he
  refine ⟨SecObj.fromPacket k, ?_, k, hk, rfl⟩
  simp only [KElem.secObj, he]
  rfl

theorem objects_of {magic : Bytes → Str} {F : HeaderFormat → Prop} {fl : Nat → Nat} {good : Nat → Prop} {rs : List RawPacket} {gs : List PGroup} {es : List KGroup}
    (h : List.Forall₂ (Holds magic F fl good) rs (gs.map PGroup.lead)) (hp : List.Forall₂ (fun g e => PartOf magic (PGroup.block g) e) gs es)
    (hk : ∀ g ∈ gs, ∃ k priv, g.lead.body = .key true true k priv) :
    ∃ os, es.mapM (fun g => g.1.secObj) = some os ∧ List.Forall₂ ObjectOf rs os := by
  induction hp generalizing rs with
  | nil => cases h; exact ⟨[], rfl, .nil⟩
  | cons h1 _ ih =>
    rename_i g e gs es _
    cases h with
    | cons h2 h3 =>
      obtain ⟨os, h4, h5⟩ := ih h3 fun g hg => hk g (List.mem_cons_of_mem _ hg)
      obtain ⟨k, priv, hb⟩ := hk _ List.mem_cons_self
      obtain ⟨⟨f, b⟩, ss⟩ := g
      simp only at hb
      subst hb
      obtain ⟨o, h6, h7⟩ := object_of h2 h1.1
      refine ⟨o :: os, ?_, .cons h7 h5⟩
      rw [List.mapM_cons, h6, h4]
      rfl

/-- The primary and subkeys of a secret key that was read, and their packets. -/
theorem ring_of_file {magic : Bytes → Str} {F : HeaderFormat → Prop} {fl : Nat → Nat} (hl : LogOnCounts fl) {good : Nat → Prop} (hg : GoodInts fl good) {data : Bytes}
    (h : SecretKeyFile magic F good data) :
    ∃ k ring rs, readKey magic data = .ok k ∧ k.secRing = some ring ∧ parseBinaryPacketData data = .ok rs ∧
      List.Forall₂ ObjectOf (rs.filter (fun r => r.type = 5 ∨ r.type = 7)) (SecRing.parts ring) := by
  obtain ⟨ps, hrep, hseq⟩ := secret_file_rep hl hg h
  obtain ⟨k, r1, _, _, r4⟩ := rep_read_full hrep hseq
  obtain ⟨rs, es, hh, he, rfl⟩ := hrep
  have hex : ∀ r ∈ rs, Expressible r := fun r hr => (forall₂_mem_left hh r hr).elim fun p hp => hp.2.2.2.2.2.1
  obtain ⟨es', h3, h4⟩ := C10_parse_concat_partial rs hex
  rw [he] at h3
  cases h3
  have hmod : ∀ p ∈ ps, Modern magic p.body := fun p hp => (forall₂_mem_right hh p hp).elim fun r hr => hr.2.2.2.2.1
  have hnt : ∀ p ∈ ps, ¬ IsTrust p.body := fun p hp ht => by
    have := hmod p hp
    cases hb : p.body <;> rw [hb] at ht this <;> first | exact ht | exact this
  obtain ⟨A, hA, rfl⟩ := arr_of hseq hnt
  have hr := arr_read hA r4
  have hu : ∀ g ∈ A.uids, g.lead.body.type = 13 ∧ ∀ p ∈ g.sigs, p.body.type = 2 := fun g hg => by
    obtain ⟨h1, h2⟩ := hA.uids g hg
    refine ⟨?_, fun p hp => sigOf_type (h2 p hp)⟩
    cases hb : g.lead.body <;> rw [hb] at h1 <;> first | exact h1.elim | rfl
  have ha : ∀ g ∈ A.attrs, g.lead.body.type = 17 ∧ ∀ p ∈ g.sigs, p.body.type = 2 := fun g hg => by
    obtain ⟨h1, h2⟩ := hA.attrs g hg
    refine ⟨?_, fun p hp => sigOf_type (h2 p hp)⟩
    cases hb : g.lead.body <;> rw [hb] at h1 <;> first | exact h1.elim | rfl
  have hs : ∀ g ∈ A.subs, g.lead.body.type = 7 ∧ ∀ p ∈ g.sigs, p.body.type = 2 := fun g hg => by
    obtain ⟨⟨k', x, h1⟩, _, h2⟩ := hA.subs g hg
    exact ⟨by rw [h1]; rfl, fun p hp => sigOf_type (h2 p hp)⟩
  have hd : ∀ p ∈ A.direct, p.body.type = 2 := fun p hp => sigOf_type (hA.direct p hp)
  unfold Arr.packets at hh
  cases hh with
  | cons hp hrest =>
    rename_i primary rest
    have f7 := forall₂_filter_type hrest 7
    have f5 := forall₂_filter_type hrest 5
    rw [List.filter_append, List.filter_append, List.filter_append, filter_sigs hd (by decide), filter_other hu (by decide) (by decide),
      filter_other ha (by decide) (by decide), List.filter_append, filter_groups hs (by decide)] at f7
    rw [List.filter_append, List.filter_append, List.filter_append, filter_sigs hd (by decide), filter_other hu (by decide) (by decide),
      filter_other ha (by decide) (by decide), List.filter_append, filter_other hs (by decide) (by decide)] at f5
    simp only [List.filter_nil, List.nil_append, List.append_nil] at f7 f5
    have hpt : primary.type = 5 := by
      have := hp.2.1
      unfold KPacket.raw at this
      obtain ⟨c, _, this⟩ := except_bind_eq_ok.mp this
      cases this
      rfl
    have hrest7 : rest.filter (fun r => r.type = 5 ∨ r.type = 7) = rest.filter (·.type = 7) := by
      refine List.filter_congr fun r hr => ?_
      have h5 : rest.filter (·.type = 5) = [] := List.forall₂_nil_right_iff.mp f5
      rw [List.filter_eq_nil_iff] at h5
      have : ¬ r.type = 5 := by simpa using h5 r hr
      simp [this]
    obtain ⟨o, o1, o2⟩ := object_of hp hr.primary.1
    obtain ⟨os, o3, o4⟩ := objects_of f7 hr.subs fun g hg => (hA.subs g hg).1
    refine ⟨k, ⟨o, os⟩, primary :: rest, r1, ?_, h4, ?_⟩
    · simp only [TKey.secRing, o1, o3]
      rfl
    · rw [List.filter_cons_of_pos (by simp [hpt]), hrest7]
      exact .cons o2 o4

/-! ### C110 -/

/-- The outcome of a method applied to all parts, each of which goes well. -/
theorem each_all (f : SecObj → SecObj × Py Unit) (k : SecRing) (h : ∀ o ∈ SecRing.parts k, (f o).2 = .ok ()) :
    ∃ k', k.each f = (k', .ok ()) ∧ SecRing.parts k' = (SecRing.parts k).map (fun o => (f o).1) := by
  have hall : ∀ l : List SecObj, (∀ o ∈ l, (f o).2 = .ok ()) → eachUntil f l = (l.map (fun o => (f o).1), .ok ()) := by
    intro l
    induction l with
    | nil => intro _; rfl
    | cons o l ih =>
      intro hl
      have h0 := hl o List.mem_cons_self
      have h1 := ih fun x hx => hl x (List.mem_cons_of_mem _ hx)
      cases hf : f o with
      | mk o' r =>
        rw [hf] at h0
        simp only at h0
        subst h0
        simp only [eachUntil, hf, h1, List.map_cons]
  have h0 := h k.main List.mem_cons_self
  have h1 := hall k.subs fun x hx => h x (List.mem_cons_of_mem _ hx)
  cases hf : f k.main with
  | mk o' r =>
    rw [hf] at h0
    simp only at h0
    subst h0
    refine ⟨⟨o', k.subs.map fun o => (f o).1⟩, ?_, ?_⟩
    · simp only [SecRing.each, hf, h1]
    · simp only [SecRing.parts, List.map_cons, hf]

theorem openable_wire {S : BlockCiphers} {H : Digest} (hH : DigestOk H) {supported : Nat → Prop} (h10 : ¬ supported 10)
    (hS : ∀ sym bl kl key, supported sym → blockOctets sym = some bl → cipherKeyOctets sym = some kl → key.length = kl → Usable S sym bl key)
    {good : Nat → Prop} {pass : Bytes} : ∀ c, (∃ numbers, OpenableKey S.enc H good supported pass numbers c) → SecretWire good c := by
  rintro c ⟨numbers, alg, sym, sp, ⟨v, a, s, t, m, priv, iv, enc, hl, kl, n, h1, h2, rfl, h3, h4, h5, h6, rfl, h7, h8, h9, h9', hb, ht, rfl⟩, _, hs, hc⟩
  refine ⟨_, 254, s, sp, iv, enc, ⟨v, a, t, m, h1, h2, h3, h4, rfl⟩, .inl rfl, h7, hb, ?_, rfl⟩
  obtain ⟨_, k2⟩ := spec_key H hH sp h7 s.toNat hl kl n pass h8 h9 (fun h => h10 (h ▸ hs)) h9' hc
  have u := hS _ _ _ _ hs hb h9 k2
  have hpm : (enc ++ List.replicate (iv.length - enc.length % iv.length) (0 : UInt8)).length % iv.length = 0 := by
    rw [List.length_append, List.length_replicate]; exact pad_mod _ _ u.pos
  obtain ⟨hlen, _⟩ := cfbTextIv_dec u.pos u.len rfl ht _ hpm
  rintro rfl
  have hsha := hH 2 20 rfl (priv.map mpi).flatten
  simp only [secretPlain, List.length_append, hsha, List.length_nil] at hlen
  omega

/-- C110 (part that holds): a secret key file, all of whose key packets are protected by `pass` as RFC 4880 prescribes (usage 254; any cipher that works, hash and
specifier), is read and unlocked by `pass`.  Then every part of it - the n-th key packet of the file for the n-th part - signs, with exactly the numbers that were
protected in that packet, in the order of the cryptographic library. -/
theorem C110_unlock_file_partial (magic : Bytes → Str) (fl : Nat → Nat) (hl : LogOnCounts fl) (good : Nat → Prop)
    (hgood : ∀ i, good i → LogRoom fl i ∧ (0 < i → fl i = Nat.log2 i)) (F : HeaderFormat → Prop) (S : BlockCiphers) (H : Digest) (hH : DigestOk H)
    (supported : Nat → Prop) (h10 : ¬ supported 10)
    (hS : ∀ sym bl kl key, supported sym → blockOctets sym = some bl → cipherKeyOctets sym = some kl → key.length = kl → Usable S sym bl key)
    (pass data : Bytes) (hdata : KeyFileOf 5 7 (fun c => ∃ numbers, OpenableKey S.enc H good supported pass numbers c) magic F good data) :
    ∃ k ring ring' rs, readKey magic data = .ok k ∧ k.secRing = some ring ∧ ring.unlock S H pass = (ring', .ok ()) ∧ parseBinaryPacketData data = .ok rs ∧
      List.Forall₂ (fun (r : RawPacket) (o : SecObj) => o.locked = false ∧ (∃ numbers, OpenableKey S.enc H good supported pass numbers r.content) ∧
          ∀ numbers, OpenableKey S.enc H good supported pass numbers r.content → ∀ (α : Type) (make : List Nat → Py α), o.sign make = make numbers)
        (rs.filter (fun r => r.type = 5 ∨ r.type = 7)) (SecRing.parts ring') := by
  obtain ⟨k, ring, rs, r1, r2, r3, r4⟩ := ring_of_file (magic := magic) hl hgood (file_mono (openable_wire hH h10 hS) hdata)
  obtain ⟨rs', es, m1, m2, rfl⟩ := file_packets (by decide) hdata
  obtain ⟨es', m3, m4⟩ := C10_parse_concat_partial rs' fun r hr => (m1 r hr).1
  rw [m2] at m3
  cases m3
  rw [r3] at m4
  cases m4
  have hK : ∀ r ∈ rs.filter (fun r => r.type = 5 ∨ r.type = 7), ∃ numbers, OpenableKey S.enc H good supported pass numbers r.content := fun r hr => by
    obtain ⟨h1, h2⟩ := List.mem_filter.mp hr
    exact (m1 r h1).2 (by simpa using h2)
  have one : ∀ (r : RawPacket) (o : SecObj), ObjectOf r o → ∀ numbers, OpenableKey S.enc H good supported pass numbers r.content →
      (o.unlock S H pass).2 = .ok () ∧ (o.unlock S H pass).1.locked = false ∧ (o.unlock S H pass).1.keyNumbers = .ok numbers := by
    rintro r o ⟨key, hkey, rfl⟩ numbers ⟨alg, sym, sp, hp, ha, hs, hc⟩
    obtain ⟨key', ver, cr, m, priv, e1, e2, e3, e4, e5⟩ := protected_values hH hS h10 hgood hp hs hc
    rw [hkey] at e1
    cases e1
    obtain ⟨u1, u2, u3, _⟩ := unlock_numbers e2 e3 e4 e5
    exact ⟨u1, u2, u3 ha⟩
  obtain ⟨ring', e1, e2⟩ := each_all (fun o => o.unlock S H pass) ring fun o ho => by
    obtain ⟨r, hr, hro⟩ := forall₂_mem_right r4 o ho
    obtain ⟨numbers, hn⟩ := hK r hr
    exact (one r o hro numbers hn).1
  refine ⟨k, ring, ring', rs, r1, r2, e1, r3, ?_⟩
  rw [e2]
  generalize rs.filter (fun r => r.type = 5 ∨ r.type = 7) = ks at r4 hK
  clear e1 e2 r2
  generalize SecRing.parts ring = os at r4
  induction r4 with
  | nil => exact .nil
  | cons h1 _ ih =>
    rename_i r o _ _ _
    refine .cons ?_ (ih fun r hr => hK r (List.mem_cons_of_mem _ hr))
    obtain ⟨n0, hn0⟩ := hK r List.mem_cons_self
    refine ⟨(one r o h1 n0 hn0).2.1, ⟨n0, hn0⟩, fun numbers hn α make => ?_⟩
    obtain ⟨_, l, kn⟩ := one r o h1 numbers hn
    simp only [SecObj.sign, l, Bool.false_eq_true, if_false, kn, except_bind_ok]

/-- C110: a passphrase - any one - unlocks the key only if, for every key packet of the file with the usage octet 254, the octets decrypted with the key derived from it
end in the SHA-1 of what comes before: another passphrase than the right one is accepted only if it hits upon that in all packets. -/
theorem C110_wrong_passphrase (magic : Bytes → Str) (fl : Nat → Nat) (hl : LogOnCounts fl) (good : Nat → Prop)
    (hgood : ∀ i, good i → LogRoom fl i ∧ (0 < i → fl i = Nat.log2 i)) (F : HeaderFormat → Prop) (S : BlockCiphers) (H : Digest) (hH : DigestOk H)
    (supported : Nat → Prop) (h10 : ¬ supported 10)
    (hS : ∀ sym bl kl key, supported sym → blockOctets sym = some bl → cipherKeyOctets sym = some kl → key.length = kl → Usable S sym bl key)
    (data : Bytes) (hdata : SecretKeyFile magic F good data) (k : TKey) (hk : readKey magic data = .ok k) (ring : SecRing) (hr : k.secRing = some ring)
    (pass : Bytes) (hu : (ring.unlock S H pass).2 = .ok ()) (rs : List RawPacket) (hrs : parseBinaryPacketData data = .ok rs)
    (r : RawPacket) (hr' : r ∈ rs) (ht : r.type = 5 ∨ r.type = 7) (pub : Bytes) (sym : UInt8) (sp : Specifier) (iv enc : Bytes) (hp : KeyWire good pub)
    (hw : sp.wellFormed) (hb : blockOctets sym.toNat = some iv.length) (hc : r.content = pub ++ (254 :: sym :: sp.octets ++ iv ++ enc))
    (hs : supported sym.toNat) (hcov : sp.covers pass) (dl kl n : Nat) (hd : digestOctets sp.hash = some dl) (hkl : cipherKeyOctets sym.toNat = some kl)
    (hn : kl ≤ n * dl) :
    ∃ body, CfbTextIv (S.enc sym.toNat (derivedKey (H sp.hash) (sp.string pass) n kl)) iv.length iv (body ++ H 2 body) enc := by
  obtain ⟨k0, ring0, rs0, r1, r2, r3, r4⟩ := ring_of_file (magic := magic) hl hgood hdata
  rw [hk] at r1; cases r1
  rw [hr] at r2; cases r2
  rw [hrs] at r3; cases r3
  obtain ⟨o, ho, key, hkey, rfl⟩ := forall₂_mem_left r4 r (List.mem_filter.mpr ⟨hr', by simpa using ht⟩)
  have hun := (each_ok _ ring hu).2 _ ho
  obtain ⟨v, a, t, m, hv, ht4, ha, hm, rfl⟩ := hp
  rw [hc, secret_parse (fl := fl) hgood hv ht4 ha hm 254 (.inl rfl) sp hw iv enc hb] at hkey
  cases hkey
  obtain ⟨k1, k2⟩ := spec_key H hH sp hw sym.toNat dl kl n pass hd hkl (fun h => h10 (h ▸ hs)) hn hcov
  have u := hS _ _ _ _ hs hb hkl k2
  obtain ⟨_, _, _, vs, hvs, _⟩ := C41_unlock S H _ pass hun
  have hv' : (mkPubKey v.toNat (beNat t) a.toNat none m).version = v.toNat := by cases m <;> rfl
  simp only [SecObj.values, SecObj.cipherKey, SecObj.fromPacket, k1, except_bind_ok, hv'] at hvs
  exact C50_hash_checked S H v.toNat sym.toNat iv.length hv _ iv enc u rfl vs hvs

/-- C110 (refuted): a file with a key packet protected with a checksum (usage octet 255, as older programs write it) is read, but no passphrase unlocks the key. -/
theorem C110_checksum_refuted (magic : Bytes → Str) (fl : Nat → Nat) (hl : LogOnCounts fl) (good : Nat → Prop)
    (hgood : ∀ i, good i → LogRoom fl i ∧ (0 < i → fl i = Nat.log2 i)) (F : HeaderFormat → Prop) (S : BlockCiphers) (H : Digest)
    (data : Bytes) (hdata : SecretKeyFile magic F good data) (rs : List RawPacket) (hrs : parseBinaryPacketData data = .ok rs)
    (r : RawPacket) (hr' : r ∈ rs) (ht : r.type = 5 ∨ r.type = 7) (pub rest : Bytes) (hp : KeyWire good pub) (hc : r.content = pub ++ 255 :: rest) :
    ∃ k ring, readKey magic data = .ok k ∧ k.secRing = some ring ∧ ∀ pass, Raises (ring.unlock S H pass).2 := by
  obtain ⟨k, ring, rs0, r1, r2, r3, r4⟩ := ring_of_file (magic := magic) hl hgood hdata
  rw [hrs] at r3; cases r3
  refine ⟨k, ring, r1, r2, fun pass => ?_⟩
  obtain ⟨o, ho, key, hkey, rfl⟩ := forall₂_mem_left r4 r (List.mem_filter.mpr ⟨hr', by simpa using ht⟩)
  cases hu : (ring.unlock S H pass).2 with
  | error e => exact ⟨e, rfl⟩
  | ok x =>
    exfalso
    have hun := (each_ok _ ring (show (ring.each fun o => o.unlock S H pass).2 = .ok () from hu)).2 _ ho
    obtain ⟨_, _, _, vs, hvs, _⟩ := C41_unlock S H _ pass hun
    obtain ⟨v, a, t, m, hv, ht4, ha, hm, rfl⟩ := hp
    have hck : key.checksum = true := by
      rw [hc] at hkey
      obtain ⟨_, off, pub', bl, h1, _, _, _, _, h2⟩ := C50_parsed_shape _ key hkey
      rw [wire_parse (fl := fl) hgood hv ht4 ha hm] at h1
      cases h1
      rw [List.drop_left, List.head?_cons] at h2
      cases hb : key.checksum with
      | true => rfl
      | false => rw [hb] at h2; cases h2
    simp only [SecObj.values, SecObj.fromPacket, hck] at hvs
    obtain ⟨kk, _, hvs⟩ := except_bind_eq_ok.mp hvs
    obtain ⟨e, he⟩ := C50_checksum_never_decrypted S H key.pub.version key.sym kk key.iv key.enc key.hash
    rw [he] at hvs
    cases hvs

/-- C110 (refuted): a key for RSA encryption only (algorithm 2) is unlocked by its passphrase, but cannot be used then either. -/
theorem C110_encrypt_only_refuted (S : BlockCiphers) (H : Digest) (hH : DigestOk H) (supported : Nat → Prop) (h10 : ¬ supported 10)
    (hS : ∀ sym bl kl key, supported sym → blockOctets sym = some bl → cipherKeyOctets sym = some kl → key.length = kl → Usable S sym bl key)
    (fl : Nat → Nat) (good : Nat → Prop) (hgood : ∀ i, good i → LogRoom fl i ∧ (0 < i → fl i = Nat.log2 i)) (pass : Bytes) (sym : Nat) (sp : Specifier)
    (numbers : List Nat) (c : Bytes) (h : ProtectedKey S.enc H good pass 2 sym sp numbers c) (hs : supported sym) (hc : sp.covers pass) :
    ∃ k o, parseSecKey c = .ok k ∧ (SecObj.fromPacket k).unlock S H pass = (o, .ok ()) ∧
      ∀ (α : Type) (make : List Nat → Py α), o.sign make = .error (.pgp "UnsupportedPublicKeyAlgorithm") := by
  obtain ⟨k, ver, cr, m, priv, e1, e2, e3, e4, e5⟩ := protected_values hH hS h10 hgood h hs hc
  obtain ⟨u1, u2, _, u4⟩ := unlock_numbers e2 e3 e4 e5
  refine ⟨k, ((SecObj.fromPacket k).unlock S H pass).1, e1, Prod.ext rfl u1, fun α make => ?_⟩
  simp only [SecObj.sign, u2, Bool.false_eq_true, if_false, u4 rfl]
  rfl

/-- C110 (refuted): with a small iteration count the end of a long passphrase is not looked at: passphrases that agree on the octets the count covers do the same. -/
theorem C110_long_passphrase_refuted (S : BlockCiphers) (H : Digest) (hH : DigestOk H) (fl : Nat → Nat) (good : Nat → Prop)
    (hgood : ∀ i, good i → LogRoom fl i ∧ (0 < i → fl i = Nat.log2 i)) (pub : Bytes) (hp : KeyWire good pub) (sym h count : UInt8) (salt iv enc p1 p2 : Bytes)
    (hsalt : salt.length = 8) (hb : blockOctets sym.toNat = some iv.length) (dl kl : Nat) (hd : digestOctets h.toNat = some dl)
    (hkl : cipherKeyOctets sym.toNat = some kl) (h10 : sym.toNat ≠ 10) (hc1 : countValue count.toNat ≤ p1.length + 8) (hc2 : countValue count.toNat ≤ p2.length + 8)
    (he : p1.take (countValue count.toNat - 8) = p2.take (countValue count.toNat - 8)) :
    ∃ k, parseSecKey (pub ++ (254 :: sym :: (Specifier.iterated h salt count).octets ++ iv ++ enc)) = .ok k ∧
      (SecObj.fromPacket k).unlock S H p1 = (SecObj.fromPacket k).unlock S H p2 := by
  obtain ⟨v, a, t, m, hv, ht4, ha, hm, rfl⟩ := hp
  refine ⟨_, secret_parse (fl := fl) hgood hv ht4 ha hm 254 (.inl rfl) (.iterated h salt count) hsalt iv enc hb, ?_⟩
  have := C20_long_passphrase_truncated H hH h.toNat sym.toNat salt p1 p2 hsalt (countValue count.toNat) dl kl hd hkl h10 hc1 hc2 he
  simp only [SecObj.unlock, SecObj.values, SecObj.cipherKey, SecObj.fromPacket, specObj, this]

/-! ### Examples -/

theorem exDigest_ok : DigestOk exDigest := fun alg n h d => by simp [exDigest, h]

theorem exCiphers_work : ∀ sym bl kl key, sym = 7 → blockOctets sym = some bl → cipherKeyOctets sym = some kl → key.length = kl → Usable exCiphers sym bl key := by
  rintro sym bl kl key rfl hb hk hl
  cases hb
  cases hk
  exact ⟨rfl, by decide, by simp [exCiphers, hl], fun b h => by simp [exCiphers, h]⟩

/-- A secret key packet protected by the passphrase "hi". -/
def exOpen (alg : UInt8) (ints : List Nat) : Bytes :=
  (4 :: [0, 0, 3, 232] ++ alg :: ((KeyMaterial.rsa 3233 17).ints.map mpi).flatten) ++ (254 :: 7 :: (Specifier.simple 2).octets ++ List.replicate 16 9 ++ exProtect ints)

theorem exOpen_ok (alg : UInt8) (ha : alg.toNat = 1 ∨ alg.toNat = 2) (d p q u : Nat) (h : ∀ i ∈ [d, p, q, u], i < 4096) :
    ProtectedKey exCiphers.enc exDigest (· < 4096) [104, 105] alg.toNat 7 (.simple 2) [3233, 17, d, p, q, u] (exOpen alg [d, p, q, u]) := by
  have key : derivedKey (exDigest 2) [104, 105] 1 16 = List.replicate 16 212 := by decide +kernel
  refine ⟨4, alg, 7, [0, 0, 3, 232], .rsa 3233 17, [d, p, q, u], List.replicate 16 9, exProtect [d, p, q, u], 20, 16, 1, by decide, rfl, rfl, ?_, by simp [KeyMaterial.ints],
    .rsa 3233 17 d p q u, fun i hi => ?_, rfl, trivial, rfl, rfl, by decide, rfl, ?_, rfl⟩
  · rcases ha with h | h
    · exact .inl h
    · exact .inr (.inl h)
  · exact Nat.lt_of_lt_of_le (show i < 2 ^ 12 from h i hi) (Nat.pow_le_pow_right (by decide) (by decide))
  · show CfbTextIv (exCiphers.enc 7 (derivedKey (exDigest 2) [104, 105] 1 16)) 16 _ _ _
    rw [key]
    exact exProtect_text _

def exOpenFile (f : HeaderFormat) : Bytes :=
  exPacket f 5 66 (exOpen 1 [2753, 61, 53, 38]) ++ (exPacket f 2 19 (exSigPlain 0x1f) ++ [] ++ [] ++ (exPacket f 7 65 (exOpen 1 [5, 6, 7, 8]) ++ (exPacket f 2 19 (exSigPlain 0x18) ++ [])))

theorem exOpenFile_ok (magic : Bytes → Str) (f : HeaderFormat) :
    KeyFileOf 5 7 (fun c => ∃ numbers, OpenableKey exCiphers.enc exDigest (· < 4096) (· = 7) [104, 105] numbers c) magic (· = f) (· < 4096) (exOpenFile f) := by
  have o1 := exOpen_ok 1 (.inl rfl) 2753 61 53 38 (by decide)
  have o2 := exOpen_ok 1 (.inl rfl) 5 6 7 8 (by decide)
  have sig : ∀ (t : Nat) (ts : List Nat), t ∈ ts → SigPacket (· = f) (· < 4096) ts (exPacket f 2 19 (exSigPlain (UInt8.ofNat t))) := fun t ts ht =>
    ⟨f, _, _, rfl, ⟨exSigPlain_ok _, t, ht, rfl⟩, exHeader rfl (by simp [exSigPlain, exSigOctets]) (by
      show (exSigPlain (UInt8.ofNat t)).length < 192
      simp only [exSigPlain, exSigOctets, List.length_append, List.length_cons, beBytes_length]
      decide) (by decide), rfl⟩
  have l1 : (exOpen 1 [2753, 61, 53, 38]).length = 66 := by decide +kernel
  have l2 : (exOpen 1 [5, 6, 7, 8]).length = 65 := by decide +kernel
  exact ⟨_, _, _, _, _, ⟨f, _, _, rfl, ⟨_, _, _, _, o1, by decide, rfl, trivial⟩, exHeader (n := 66) l1.symm (by omega) (by omega) (by decide), rfl⟩, cat_one (sig 0x1f _ (by decide)),
    ⟨[], by simp, rfl⟩, ⟨[], by simp, rfl⟩,
    cat_one ⟨_, _, [], ⟨f, _, _, rfl, ⟨_, _, _, _, o2, by decide, rfl, trivial⟩, exHeader (n := 65) l2.symm (by omega) (by omega) (by decide), rfl⟩, sig 0x18 _ (by decide), ⟨[], by simp, rfl⟩, rfl⟩, rfl⟩

example (magic : Bytes → Str) := C110_unlock_file_partial magic Nat.log2 (fun _ _ _ => rfl) (· < 4096) exGood (· = .new) exCiphers exDigest exDigest_ok (· = 7) (by decide)
  exCiphers_work [104, 105] (exOpenFile .new) (exOpenFile_ok magic .new)

theorem exOpenFile_packets : parseBinaryPacketData (exOpenFile .old) =
    .ok [⟨.old, 5, exOpen 1 [2753, 61, 53, 38]⟩, ⟨.old, 2, exSigPlain 0x1f⟩, ⟨.old, 7, exOpen 1 [5, 6, 7, 8]⟩, ⟨.old, 2, exSigPlain 0x18⟩] := by
  decide +kernel

/-- The primary key of the example signs with these numbers. -/
example (magic : Bytes → Str) : ∃ k ring ring', readKey magic (exOpenFile .old) = .ok k ∧ k.secRing = some ring ∧ ring.unlock exCiphers exDigest [104, 105] = (ring', .ok ()) ∧
    ring'.main.sign (fun l => .ok l) = .ok [3233, 17, 2753, 61, 53, 38] := by
  obtain ⟨k, ring, ring', rs, h1, h2, h3, h4, h5⟩ := C110_unlock_file_partial magic Nat.log2 (fun _ _ _ => rfl) (· < 4096) exGood (· = .old) exCiphers exDigest exDigest_ok (· = 7)
    (by decide) exCiphers_work [104, 105] (exOpenFile .old) (exOpenFile_ok magic .old)
  rw [exOpenFile_packets] at h4
  cases h4
  rw [List.filter_cons_of_pos (by decide)] at h5
  obtain ⟨m, subs⟩ := ring'
  obtain ⟨h7, _⟩ := List.forall₂_cons.mp h5
  exact ⟨k, ring, _, h1, h2, h3, h7.2.2 _ ⟨_, _, _, exOpen_ok 1 (.inl rfl) 2753 61 53 38 (by decide), by decide, rfl, trivial⟩ _ _⟩

example := C110_encrypt_only_refuted exCiphers exDigest exDigest_ok (· = 7) (by decide) exCiphers_work Nat.log2 (· < 4096) exGood [104, 105] 7 (.simple 2) _ _
  (exOpen_ok 2 (.inr rfl) 2753 61 53 38 (by decide)) rfl trivial

example := C110_long_passphrase_refuted exCiphers exDigest exDigest_ok Nat.log2 (· < 4096) exGood exKeyOctets exKeyOctets_ok 7 2 0 [1, 2, 3, 4, 5, 6, 7, 8] (List.replicate 16 9) [1, 2]
  (List.replicate 1016 7 ++ [1]) (List.replicate 1016 7 ++ [2, 3]) rfl rfl 20 16 rfl rfl (by decide) (by rw [List.length_append, List.length_replicate]; decide) (by rw [List.length_append, List.length_replicate]; decide)
  (by show _ = _; rw [show countValue (0 : UInt8).toNat - 8 = (List.replicate 1016 (7 : UInt8)).length by rw [List.length_replicate]; rfl, List.take_left, List.take_left])

example (magic : Bytes → Str) := C110_checksum_refuted magic Nat.log2 (fun _ _ _ => rfl) (· < 4096) exGood (· = .old) exCiphers exDigest (exSecretFile .old) (exSecretFile_ok magic .old)
  [⟨.old, 5, exProt1⟩, ⟨.old, 2, exSigPlain 0x1f⟩, ⟨.old, 13, [0x41, 0x6c, 0xc3, 0xa9, 0x21]⟩, ⟨.old, 2, exSigPlain 0x13⟩, ⟨.old, 7, exProt2⟩, ⟨.old, 2, exSigPlain 0x18⟩] (by decide +kernel)
  ⟨.old, 7, exProt2⟩ (by simp) (.inr rfl) exKeyOctets _ exKeyOctets_ok rfl

/-- The hypotheses of `C110_wrong_passphrase` are met by the example and its passphrase. -/
example (magic : Bytes → Str) : ∃ body, CfbTextIv (exCiphers.enc 7 (derivedKey (exDigest 2) [104, 105] 1 16)) 16 (List.replicate 16 9) (body ++ exDigest 2 body)
    (exProtect [2753, 61, 53, 38]) := by
  obtain ⟨k, ring, ring', rs, h1, h2, h3, h4, _⟩ := C110_unlock_file_partial magic Nat.log2 (fun _ _ _ => rfl) (· < 4096) exGood (· = .old) exCiphers exDigest exDigest_ok (· = 7)
    (by decide) exCiphers_work [104, 105] (exOpenFile .old) (exOpenFile_ok magic .old)
  have hwire : ∀ c, (∃ numbers, OpenableKey exCiphers.enc exDigest (· < 4096) (· = 7) [104, 105] numbers c) → SecretWire (· < 4096) c :=
    openable_wire exDigest_ok (by decide) exCiphers_work
  exact C110_wrong_passphrase magic Nat.log2 (fun _ _ _ => rfl) (· < 4096) exGood (· = .old) exCiphers exDigest exDigest_ok (· = 7) (by decide) exCiphers_work (exOpenFile .old)
    (file_mono hwire (exOpenFile_ok magic .old)) k h1 ring h2 [104, 105] (by rw [h3]) _ exOpenFile_packets ⟨.old, 5, exOpen 1 [2753, 61, 53, 38]⟩ List.mem_cons_self (.inl rfl)
    exKeyOctets 7 (.simple 2) (List.replicate 16 9) (exProtect [2753, 61, 53, 38]) exKeyOctets_ok trivial rfl (by
      have : (4 :: [0, 0, 3, 232] ++ (1 : UInt8) :: ((KeyMaterial.rsa 3233 17).ints.map mpi).flatten) = exKeyOctets := by decide +kernel
      simp only [exOpen, this]) rfl trivial 20 16 1 rfl rfl (by decide)

end Pgp.Props
