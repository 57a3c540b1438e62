import Verif.Spec.Import
import Verif.Props.Keyring
import Verif.Props.Revoked
import Verif.Props.Streams
import Verif.Props.SecretFile
/-
Property theorems C120: keys stored in a keyring file and looked up there.
-/
namespace Pgp.Props
open Spec

/-! ### A key file as a block of a keyring -/

theorem sequence_types {secret : Bool} {b : KBody} {l : List KBody} (h : KeySequence secret (b :: l)) :
    (∃ k priv, b = .key secret false k priv) ∧ ∀ x ∈ l, x.type ≠ 6 ∧ x.type ≠ 5 ∧ x.type ≠ 8 := by
  obtain ⟨pk, priv, direct, uids, attrs, subs, he, hdir, hu, ha, hsub⟩ := h
  cases he
  refine ⟨⟨_, _, rfl⟩, fun x hm => ?_⟩
  have run : ∀ (types : List Nat) (a : Bool) (l : List KBody), SigRun types a l → x ∈ l → x.type ≠ 6 ∧ x.type ≠ 5 ∧ x.type ≠ 8 := by
    intro types a l h hm
    have := h.1 _ hm
    cases x <;> simp [SigOf, IsTrust, KBody.type] at this ⊢
  rw [List.mem_append, List.mem_append, List.mem_append] at hm
  rcases hm with ((hm | hm) | hm) | hm
  · exact run _ _ _ hdir.1 hm
  · obtain ⟨gs, rfl, hgs⟩ := hu
    obtain ⟨l, hl, hm⟩ := List.mem_flatten.mp hm
    obtain ⟨_, body, rfl, hr⟩ := hgs l hl
    rcases List.mem_cons.mp hm with rfl | hm
    · simp [KBody.type]
    · exact run _ _ _ hr hm
  · obtain ⟨gs, rfl, hgs⟩ := ha
    obtain ⟨l, hl, hm⟩ := List.mem_flatten.mp hm
    obtain ⟨_, body, rfl, hr⟩ := hgs l hl
    rcases List.mem_cons.mp hm with rfl | hm
    · simp [KBody.type]
    · exact run _ _ _ hr hm
  · obtain ⟨⟨gs, rfl, hgs⟩, _⟩ := hsub
    obtain ⟨l, hl, hm⟩ := List.mem_flatten.mp hm
    obtain ⟨_, _, body, rfl, _, hr⟩ := hgs l hl
    rcases List.mem_cons.mp hm with rfl | hm
    · cases secret <;> simp [KBody.type]
    · exact run _ _ _ hr hm

theorem headerOf_framed {f : HeaderFormat} {t : Nat} {c hd : Bytes} (h : HeaderOf f t c.length hd) : Framed ⟨f, t, c⟩ (hd ++ c) := by
  cases f with
  | new =>
    obtain ⟨ht, _, l, hl, rfl⟩ := h
    exact .new t c l ht hl.1
  | old =>
    obtain ⟨ht, _, lt, l, hl, _, rfl⟩ := h
    exact .old t lt c l ht hl

/-- What is known of the key in a file. -/
structure FileFacts (fl : FloorLog2) (H : Digest) (magic : Bytes → Str) (F : HeaderFormat → Prop) (data : Bytes) (fp : Str) (k : TKey) (b : KeyBlock) : Prop where
  read : readKey magic data = .ok k
  octets : ∀ hf, (∀ f, F f → hf.getD f = f) → k.octets fl hf = .ok data
  fingerprint : k.fingerprint fl H = .ok fp
  wf : b.WF (keyInfo fl H)
  stored : b.octets = data
  short : shortId b.keyId = shortId fp
  built : buildKey magic b.packets = .ok k
  format : F b.head.fmt
  first : ∀ more, formatOf (data ++ more) = some b.head.fmt
  long : fp.length = 40

theorem packetsOctets_flatten {rs : List RawPacket} {es : List Bytes} (h : rs.mapM (Packet.toBytes 1) = .ok es) : packetsOctets rs = es.flatten := by
  induction rs generalizing es with
  | nil => cases h; rfl
  | cons r rs ih =>
    rw [List.mapM_cons] at h
    obtain ⟨e, he, h⟩ := except_bind_eq_ok.mp h
    obtain ⟨es', hes, h⟩ := except_bind_eq_ok.mp h
    cases h
    rw [List.flatten_cons, ← ih hes]
    simp only [packetsOctets, List.flatMap_cons, packetOctets, he]

theorem hexText_length (b : Bytes) : (hexText b).length = 2 * b.length := by
  rw [← hexOf_eq_hexText]
  unfold hexOf
  induction b with
  | nil => rfl
  | cons x b ih => simp only [List.flatMap_cons, List.length_append, ih, List.length_cons, hexOfByte, List.length_nil]; omega

theorem rep_facts {fl : Nat → Nat} {good : Nat → Prop} (hg : GoodInts fl good) {H : Digest} (hH : ∀ d, (H 2 d).length = 20) {magic : Bytes → Str}
    {F : HeaderFormat → Prop} {data : Bytes} {ps : List KPacket} {secret : Bool} (hrep : Rep magic F fl good data ps) (hseq : KeySequence secret (ps.map KPacket.body))
    {fp : Str} (hfp : FileFingerprint (H 2) good data fp) : ∃ k b, FileFacts fl H magic F data fp k b := by
  obtain ⟨k, r1, r2, r3, r4⟩ := rep_read_full hrep hseq
  obtain ⟨rs, es, hh, he, hdat⟩ := hrep
  have hex : ∀ r ∈ rs, Expressible r := fun r hr => (forall₂_mem_left hh r hr).elim fun p hp => hp.2.2.2.2.2.1
  have hread : rs.mapM readPacket = .ok ps := by
    clear he hseq r1 r2 r3 r4 hex hfp hdat
    clear k
    induction hh with
    | nil => rfl
    | cons hx _ ih =>
      rw [List.mapM_cons, hx.1]
      simp only [except_bind_ok, ih]
      rfl
  have hnt : ∀ p ∈ ps, ¬ IsTrust p.body := fun p hp ht => by
    have : Modern magic p.body := (forall₂_mem_right hh p hp).elim fun r hr => hr.2.2.2.2.1
    cases hb : p.body <;> rw [hb] at ht this <;> first | exact ht | exact this
  have hkeys := pubKeys_of hseq hnt r4
  cases hh with
  | nil => obtain ⟨_, _, _, _, _, _, h, _⟩ := hseq; cases h
  | @cons r p rs ps hx hrest =>
    rw [List.map_cons] at hseq
    obtain ⟨⟨pk, priv, hb⟩, htail⟩ := sequence_types hseq
    obtain ⟨hty, _⟩ := raw_facts hx.2.1
    -- the first packet
    obtain ⟨f, t, hd, pub, tail, rest, ht, hhd, hpub, hdata, hfpe⟩ := hfp
    have hrp : r = ⟨f, t, pub ++ tail⟩ := by
      obtain ⟨es', h3, h4⟩ := C10_parse_concat_partial (r :: rs) hex
      rw [he] at h3
      cases h3
      rw [hdat] at h4
      have h5 := framed_memory (headerOf_framed hhd) (data := data) (off := 0) (s := rest) (by rw [hdata, List.drop_zero])
      unfold parseBinaryPacketData at h4
      have hpos : 0 < data.length := by
        rw [hdata]
        simp only [List.length_append]
        have : 0 < pub.length := by
          obtain ⟨v, a, t, m, _, _, _, _, rfl⟩ := hpub
          simp
        omega
      obtain ⟨n, hn⟩ : ∃ n, data.length = n + 1 := ⟨data.length - 1, by omega⟩
      rw [hn, parseLoop, if_pos hpos, h5] at h4
      simp only [except_bind_ok] at h4
      obtain ⟨x, _, h4⟩ := except_bind_eq_ok.mp h4
      cases h4
      rfl
    obtain ⟨k0, hk0, hc0, hd0, hv0⟩ := keyWire_parse hg hpub
    have hbody : readBody r = .ok (.key secret false pk priv) := by
      have := hx.1
      unfold readPacket at this
      obtain ⟨b', hb', h⟩ := except_bind_eq_ok.mp this
      cases h
      rw [hb', ← hb]
    have hpk : pk = k0 := by
      rw [hrp] at hbody
      unfold readBody at hbody
      rcases ht with rfl | rfl
      · rw [dif_pos (.inl rfl), hk0] at hbody
        cases hbody; rfl
      · rw [dif_neg (by simp), dif_pos (.inl rfl)] at hbody
        obtain ⟨sk, hsk, hbody⟩ := except_bind_eq_ok.mp hbody
        cases hbody
        obtain ⟨_, off, pub', bl, h1, h2, _⟩ := C50_parsed_shape _ _ hsk
        rw [hk0] at h1
        cases h1
        rw [h2]
    subst hpk
    obtain ⟨f1, f2⟩ := C23_fingerprint_definition fl H hH pk hv0 pub hc0
    rw [hexOf_eq_hexText] at f1 f2
    have hlong : fp.length = 40 := by rw [hfpe, hexText_length, hH]
    refine ⟨k, ⟨r, rs, hexText ((H 2 ([0x99] ++ beBytes 2 pub.length ++ pub)).drop 12)⟩, r1, r3, ?_, ⟨?_, ?_, ?_, hex, ?_⟩, ?_, ?_, ?_, ?_, ?_, hlong⟩
    · unfold TKey.fingerprint
      unfold TKey.pubKeys at hkeys
      cases hm : k.primary.1.pubKey with
      | none => rw [hm] at hkeys; cases hkeys
      | some m =>
        have : m = pk := by
          rw [hm] at hkeys
          simp only [packetKeys, List.filterMap_cons, hb, Option.bind_eq_bind, Option.bind_some] at hkeys
          cases hs : k.subs.mapM fun g => g.1.pubKey with
          | none => rw [hs] at hkeys; cases hkeys
          | some subs =>
            rw [hs] at hkeys
            cases hkeys
            rw [← hd0]
        rw [this]
        simp only [f1, hfpe]
    · rw [hrp]; exact ht
    · show rawKeyId fl H r = _
      unfold rawKeyId
      simp only [hbody, except_bind_ok, f2]
    · intro q hq
      obtain ⟨p', hp', hq'⟩ := forall₂_mem_left hrest q hq
      rw [(raw_facts hq'.2.1).1]
      exact htail _ (List.mem_map.mpr ⟨p', hp', rfl⟩)
    · intro q hq
      obtain ⟨p', hp', hq'⟩ := forall₂_mem_left (List.Forall₂.cons hx hrest) q hq
      show (do let _ ← readPacket q; return () : Py Unit) = _
      rw [hq'.1]; rfl
    · rw [← hdat, ← packetsOctets_flatten he]; rfl
    · unfold shortId
      have hlen : ((H 2 ([0x99] ++ beBytes 2 pub.length ++ pub)).drop 12).length = 8 := by rw [List.length_drop, hH]
      rw [hfpe, hexText_length, hexText_length, hlen, hH, ← hexOf_eq_hexText, ← hexOf_eq_hexText]
      have hdrop : hexOf ((H 2 ([0x99] ++ beBytes 2 pub.length ++ pub)).drop 12) = (hexOf (H 2 ([0x99] ++ beBytes 2 pub.length ++ pub))).drop 24 := by
        have h1 := f2
        rw [PubKey.keyId, f1] at h1
        simp only [except_bind_ok, except_pure, Except.ok.injEq, lastN] at h1
        rw [hexText_length, hH, if_neg (by decide)] at h1
        rw [hexOf_eq_hexText, hexOf_eq_hexText, ← h1]
      rw [hdrop, List.drop_drop]
    · unfold buildKey
      simp only [KeyBlock.packets, hread, except_bind_ok]
      have hcls : classOf (r :: rs) = .ok (if secret then .secretKey else .publicKey) := by
        show (if r.type = 6 then _ else if r.type = 5 then _ else _ : Py KeyClass) = _
        rw [hty, hb]
        cases secret <;> rfl
      simp only [hcls, except_bind_ok]
      cases secret <;> exact r4
    · have hF := hx.2.2.1
      have := hx.2.1
      unfold KPacket.raw at this
      obtain ⟨c, _, this⟩ := except_bind_eq_ok.mp this
      cases this
      exact hF
    · intro more
      rw [hdata, hrp]
      cases f with
      | new =>
        obtain ⟨h64, _, l, _, rfl⟩ := hhd
        rw [List.cons_append, List.cons_append, List.cons_append, formatOf, toNat_ofNat_lt (by omega), if_pos (by omega)]
      | old =>
        obtain ⟨h16, _, lt, l, hl, _, rfl⟩ := hhd
        have : lt < 4 := by
          generalize (pub ++ tail).length = n at hl
          cases hl <;> decide
        rw [List.cons_append, List.cons_append, List.cons_append, formatOf, toNat_ofNat_lt (by omega), if_neg (by omega)]

theorem any_file_facts {fl : Nat → Nat} (hl : LogOnCounts fl) {good : Nat → Prop} (hg : GoodInts fl good) {H : Digest} (hH : ∀ d, (H 2 d).length = 20) {magic : Bytes → Str}
    {F : HeaderFormat → Prop} {data : Bytes} {fp : Str} (h : AnyKeyFile magic F good data) (hfp : FileFingerprint (H 2) good data fp) :
    ∃ k b, FileFacts fl H magic F data fp k b := by
  rcases h with h | h
  · obtain ⟨ps, hr, hs⟩ := file_rep hg h
    exact rep_facts hg hH hr hs hfp
  · obtain ⟨ps, hr, hs⟩ := secret_file_rep hl hg h
    exact rep_facts hg hH hr hs hfp

/-! ### Keyrings made of such files -/

/-- The keyring object is in step with its file, which holds these keys. -/
def RingHolds (fl : FloorLog2) (H : Digest) (magic : Bytes → Str) (r : Keyring) (l : List (Bytes × Str)) : Prop :=
  ∃ bs : List KeyBlock, List.Forall₂ (fun (x : Bytes × Str) b => ∃ F k, FileFacts fl H magic F x.1 x.2 k b) l bs ∧ InSync (keyInfo fl H) r bs

theorem ringHolds_wf {fl : FloorLog2} {H : Digest} {magic : Bytes → Str} {l : List (Bytes × Str)} {bs : List KeyBlock}
    (h : List.Forall₂ (fun (x : Bytes × Str) b => ∃ F k, FileFacts fl H magic F x.1 x.2 k b) l bs) :
    (∀ b ∈ bs, b.WF (keyInfo fl H)) ∧ ringOctets bs = (l.map Prod.fst).flatten := by
  induction h with
  | nil => exact ⟨fun _ h => (by cases h), rfl⟩
  | cons hx _ ih =>
    obtain ⟨F, k, hx⟩ := hx
    refine ⟨fun b hb => ?_, ?_⟩
    · rcases List.mem_cons.mp hb with rfl | hb
      · exact hx.wf
      · exact ih.1 _ hb
    · rw [ringOctets_cons, List.map_cons, List.flatten_cons, ih.2, hx.stored]

theorem ringHolds_file {fl : FloorLog2} {H : Digest} {magic : Bytes → Str} {r : Keyring} {l : List (Bytes × Str)} (h : RingHolds fl H magic r l) :
    r.file = (l.map Prod.fst).flatten := by
  obtain ⟨bs, h1, h2⟩ := h
  rw [h2.file, (ringHolds_wf h1).2]

theorem ringHolds_lookup {fl : FloorLog2} {H : Digest} {magic : Bytes → Str} {r : Keyring} {before after : List (Bytes × Str)} {d : Bytes} {fp q : Str}
    (h : RingHolds fl H magic r (before ++ (d, fp) :: after)) (hq : lastEight q = lastEight fp) (hlast : ∀ x ∈ after, lastEight x.2 ≠ lastEight fp) :
    ∃ k, r.lookup fl H magic q = .ok k ∧ readKey magic d = .ok k ∧ k.octets fl none = .ok d ∧ k.fingerprint fl H = .ok fp := by
  obtain ⟨bs, h1, h2⟩ := h
  obtain ⟨b1, b2, rfl, hb1, hb2⟩ := forall₂_split h1
  cases hb2 with
  | @cons _ b _ bs hx hrest =>
    obtain ⟨F, k, hx⟩ := hx
    refine ⟨k, ?_, hx.read, hx.octets none fun f _ => rfl, hx.fingerprint⟩
    have hm : lastMatch (b1 ++ b :: bs) (shortId q) = some b := by
      unfold lastMatch
      rw [List.reverse_append, List.reverse_cons, List.append_assoc, List.find?_append]
      have : bs.reverse.find? (KeyBlock.hasShort (shortId q)) = none := by
        rw [List.find?_eq_none]
        intro c hc
        obtain ⟨x, hx', F', k', hc'⟩ := forall₂_mem_right hrest c (List.mem_reverse.mp hc)
        have := hlast x hx'
        simp only [KeyBlock.hasShort, beq_iff_eq, hc'.short]
        exact fun he => this (he.trans hq)
      rw [this]
      have hb : b.hasShort (shortId q) = true := by
        simp only [KeyBlock.hasShort, beq_iff_eq, hx.short]
        exact hq.symm
      simp [hb]
    unfold Keyring.lookup
    rw [inSync_get h2, hm]
    exact hx.built

theorem ringHolds_missing {fl : FloorLog2} {H : Digest} {magic : Bytes → Str} {r : Keyring} {l : List (Bytes × Str)} {q : Str}
    (h : RingHolds fl H magic r l) (hq : ∀ x ∈ l, lastEight x.2 ≠ lastEight q) : r.lookup fl H magic q = .error .keyError := by
  obtain ⟨bs, h1, h2⟩ := h
  have hm : lastMatch bs (shortId q) = none := by
    unfold lastMatch
    rw [List.find?_eq_none]
    intro c hc
    obtain ⟨x, hx', F', k', hc'⟩ := forall₂_mem_right h1 c (List.mem_reverse.mp hc)
    simp only [KeyBlock.hasShort, beq_iff_eq, hc'.short]
    exact hq x hx'
  unfold Keyring.lookup
  rw [inSync_get h2, hm]
  rfl

theorem import_step {fl : FloorLog2} {H : Digest} {magic : Bytes → Str} {r : Keyring} {l : List (Bytes × Str)} (h : RingHolds fl H magic r l)
    (hro : r.readOnly = false) {f : HeaderFormat} (hf : r.fmt.getD f = f) {d : Bytes} {fp : Str} {k : TKey} {b : KeyBlock}
    (hd : FileFacts fl H magic (· = f) d fp k b) :
    ∃ r', r.importFile fl H magic d = (.ok (), r') ∧ RingHolds fl H magic r' (l ++ [(d, fp)]) ∧ r'.readOnly = false ∧ r'.fmt.getD f = f := by
  obtain ⟨bs, h1, h2⟩ := h
  have h3 : List.Forall₂ (fun (x : Bytes × Str) b => ∃ F k, FileFacts fl H magic F x.1 x.2 k b) (l ++ [(d, fp)]) (bs ++ [b]) :=
    List.rel_append h1 (.cons ⟨_, k, hd⟩ .nil)
  obtain ⟨w1, w2⟩ := ringHolds_wf h3
  obtain ⟨r', e1, e2, e3, e4⟩ := write_inSync (r := r) w1 (data := r.file ++ d) (by
    rw [h2.file, ringOctets_append, ← hd.stored]; simp [ringOctets])
  refine ⟨r', ?_, ⟨_, h3, e2⟩, e4.trans hro, ?_⟩
  · unfold Keyring.importFile Keyring.store
    simp only [hd.read, hd.fingerprint]
    unfold Keyring.add
    have hlong : 8 < fp.length := by rw [hd.long]; decide
    rw [if_neg (by rw [hro]; decide), h2.table, tableGet_long hlong, if_neg (by decide)]
    simp only [hd.octets r.fmt (fun g hg => by rw [hg]; exact hf)]
    exact e1
  · rw [e3]
    have h4 := h2.fmt
    unfold fmtAfter at h4 ⊢
    cases hr : r.fmt with
    | some g => rw [hr] at hf; exact hf
    | none =>
      rw [hr] at h4
      cases bs with
      | nil => exact hd.format
      | cons c bs => cases h4

theorem imports {fl : FloorLog2} {H : Digest} {magic : Bytes → Str} {f : HeaderFormat} (new : List (Bytes × Str)) :
    ∀ {r : Keyring} {l : List (Bytes × Str)}, RingHolds fl H magic r l → r.readOnly = false → r.fmt.getD f = f →
      (∀ x ∈ new, ∃ k b, FileFacts fl H magic (· = f) x.1 x.2 k b) →
      (r.importFiles fl H magic (new.map Prod.fst)).1 = new.map (fun _ => .ok ()) ∧ RingHolds fl H magic (r.importFiles fl H magic (new.map Prod.fst)).2 (l ++ new) := by
  induction new with
  | nil => intro r l h _ _ _; exact ⟨rfl, by rw [List.append_nil]; exact h⟩
  | cons x new ih =>
    intro r l h hro hf hn
    obtain ⟨k, b, hx⟩ := hn x (.head _)
    obtain ⟨r', e1, e2, e3, e4⟩ := import_step h hro hf hx
    obtain ⟨i1, i2⟩ := ih e2 e3 e4 fun y hy => hn y (.tail _ hy)
    rw [List.map_cons, Keyring.importFiles, e1]
    refine ⟨?_, ?_⟩
    · rw [List.map_cons, ← i1]
    · rw [List.append_assoc] at i2; exact i2

theorem open_holds {fl : FloorLog2} {H : Digest} {magic : Bytes → Str} {l : List (Bytes × Str)} {bs : List KeyBlock}
    (h : List.Forall₂ (fun (x : Bytes × Str) b => ∃ F k, FileFacts fl H magic F x.1 x.2 k b) l bs) (ro : Bool) :
    ∃ r, Keyring.open (keyInfo fl H) (l.map Prod.fst).flatten ro = .ok r ∧ RingHolds fl H magic r l ∧ r.readOnly = ro ∧
      r.fmt = formatOf (l.map Prod.fst).flatten := by
  obtain ⟨w1, w2⟩ := ringHolds_wf h
  obtain ⟨r, o1, o2, o3, o4⟩ := open_inSync w1 ro
  rw [w2] at o1
  refine ⟨r, o1, ⟨bs, h, o2⟩, o4, ?_⟩
  rw [o3]
  cases h with
  | nil => rfl
  | cons hx _ =>
    obtain ⟨F, k, hx⟩ := hx
    rw [List.map_cons, List.flatten_cons, hx.first]
    rfl

theorem old_blocks {fl : Nat → Nat} (hl : LogOnCounts fl) {good : Nat → Prop} (hg : GoodInts fl good) {H : Digest} (hH : ∀ d, (H 2 d).length = 20) {magic : Bytes → Str}
    {old : List (Bytes × Str)} (hold : ∀ x ∈ old, (∃ F, AnyKeyFile magic F good x.1) ∧ FileFingerprint (H 2) good x.1 x.2) :
    ∃ bs, List.Forall₂ (fun (x : Bytes × Str) b => ∃ F k, FileFacts fl H magic F x.1 x.2 k b) old bs := by
  induction old with
  | nil => exact ⟨[], .nil⟩
  | cons x old ih =>
    obtain ⟨bs, h⟩ := ih fun y hy => hold y (.tail _ hy)
    obtain ⟨⟨F, hF⟩, hfp⟩ := hold x (.head _)
    obtain ⟨k, b, hb⟩ := any_file_facts hl hg hH hF hfp
    exact ⟨b :: bs, .cons ⟨_, k, hb⟩ h⟩

/-- C120 (part that holds): a keyring file consisting of keys, public or secret and in any packet formats, is opened; further keys, written in the format of the file's first
packet (in any one format, if the file is empty), are stored one after the other; each is accepted and appended to the file as it is. Afterwards, and after opening the file
anew, every key, old or new, is found under any text with the last eight digits of its fingerprint, unless a later key shares these; what is found is the key read from its
file, which gives back exactly its octets. Nothing is found under other texts. -/
theorem C120_import_partial (magic : Bytes → Str) (fl : Nat → Nat) (hl : LogOnCounts fl) (good : Nat → Prop)
    (hg : ∀ i, good i → LogRoom fl i ∧ (0 < i → fl i = Nat.log2 i)) (H : Digest) (hH : ∀ d, (H 2 d).length = 20) (f : HeaderFormat)
    (old : List (Bytes × Str)) (hold : ∀ x ∈ old, (∃ F, AnyKeyFile magic F good x.1) ∧ FileFingerprint (H 2) good x.1 x.2)
    (hf : (formatOf (old.map Prod.fst).flatten).getD f = f)
    (new : List (Bytes × Str)) (hnew : ∀ x ∈ new, AnyKeyFile magic (· = f) good x.1 ∧ FileFingerprint (H 2) good x.1 x.2) :
    ∃ r l r', Keyring.open (keyInfo fl H) (old.map Prod.fst).flatten false = .ok r ∧ r.importFiles fl H magic (new.map Prod.fst) = (l, r') ∧
      l = new.map (fun _ => .ok ()) ∧ r'.file = ((old ++ new).map Prod.fst).flatten ∧
      ∀ s, s = r' ∨ (∃ ro, Keyring.open (keyInfo fl H) r'.file ro = .ok s) →
        (∀ before after d fp q, old ++ new = before ++ (d, fp) :: after → lastEight q = lastEight fp → (∀ x ∈ after, lastEight x.2 ≠ lastEight fp) →
          ∃ k, s.lookup fl H magic q = .ok k ∧ readKey magic d = .ok k ∧ k.octets fl none = .ok d ∧ k.fingerprint fl H = .ok fp) ∧
        ∀ q, (∀ x ∈ old ++ new, lastEight x.2 ≠ lastEight q) → s.lookup fl H magic q = .error .keyError := by
  obtain ⟨bs, hbs⟩ := old_blocks hl hg hH hold
  obtain ⟨r, o1, o2, o3, o4⟩ := open_holds hbs false
  obtain ⟨i1, i2⟩ := imports new o2 o3 (f := f) (by rw [o4]; exact hf) fun x hx => any_file_facts hl hg hH (hnew x hx).1 (hnew x hx).2
  refine ⟨r, _, _, o1, rfl, i1, ringHolds_file i2, fun s hs => ?_⟩
  have hs : RingHolds fl H magic s (old ++ new) := by
    rcases hs with rfl | ⟨ro, hs⟩
    · exact i2
    · rw [ringHolds_file i2] at hs
      obtain ⟨bs', h1, _⟩ := i2
      obtain ⟨s', h2, h3, _⟩ := open_holds h1 ro
      rw [h2] at hs
      cases hs
      exact h3
  exact ⟨fun before after d fp q he hq hlast => ringHolds_lookup (he ▸ hs) hq hlast, fun q hq => ringHolds_missing hs hq⟩

/-! ### Keys that are rewritten -/

theorem framed_unique {p p' : RawPacket} {w w' s s' : Bytes} (h : Framed p w) (h' : Framed p' w') (he : w ++ s = w' ++ s') : p = p' ∧ s = s' := by
  have h1 := framed_memory h (data := w ++ s) (off := 0) (s := s) rfl
  have h2 := framed_memory h' (data := w ++ s) (off := 0) (s := s') (by rw [List.drop_zero, he])
  rw [h1] at h2
  simp only [Except.ok.injEq, Prod.mk.injEq, Nat.zero_add] at h2
  obtain ⟨hl, rfl⟩ := h2
  exact ⟨rfl, (List.append_inj he hl).2⟩

theorem header_ne {f : HeaderFormat} {t n : Nat} {h : Bytes} (hh : HeaderOf f t n h) : h ≠ [] := by
  cases f with
  | new => obtain ⟨_, _, l, _, rfl⟩ := hh; simp
  | old => obtain ⟨_, _, lt, l, _, _, rfl⟩ := hh; simp

theorem readBody_format (f g : HeaderFormat) (t : Nat) (c : Bytes) : readBody ⟨f, t, c⟩ = readBody ⟨g, t, c⟩ := rfl

/-- A packet with another header format. -/
def KPacket.inFormat (f : HeaderFormat) (p : KPacket) : KPacket := ⟨f, p.body⟩

theorem reheaded_rep {magic : Bytes → Str} {F : HeaderFormat → Prop} {fl : Nat → Nat} {good : Nat → Prop} {f : HeaderFormat} {data d' : Bytes} (h : Reheaded f data d') :
    ∀ {ps : List KPacket}, Rep magic F fl good data ps →
      ∃ rs es, List.Forall₂ (Holds magic (· = f) fl good) rs (ps.map (KPacket.inFormat f)) ∧ rs.mapM (Packet.toBytes 1) = .ok es ∧ es.flatten = d' ∧
        ps.mapM (KPacket.raw fl (some f)) = .ok rs := by
  induction h with
  | nil =>
    rintro ps ⟨rs, es, hh, he, hf⟩
    cases hh with
    | nil => exact ⟨[], [], .nil, rfl, rfl, rfl⟩
    | @cons r p rs ps hx _ =>
      exfalso
      rw [List.mapM_cons] at he
      obtain ⟨e, he1, he⟩ := except_bind_eq_ok.mp he
      obtain ⟨es', _, he⟩ := except_bind_eq_ok.mp he
      cases he
      obtain ⟨hd, h1, rfl⟩ := (C83_packet_octets_iff r hx.2.2.2.2.1 e).mp he1
      rw [List.flatten_cons, List.append_eq_nil_iff, List.append_eq_nil_iff] at hf
      exact header_ne h1 hf.1.1
  | @cons g t c hd hd' b b' hg hf hb ih =>
    rintro ps ⟨rs, es, hh, he, hfl⟩
    cases hh with
    | nil =>
      exfalso
      cases he
      have h3 : hd ++ c ++ b = [] := hfl.symm
      rw [List.append_assoc, List.append_eq_nil_iff] at h3
      exact header_ne hg h3.1
    | @cons r p rs ps hx hrest =>
      rw [List.mapM_cons] at he
      obtain ⟨e, he1, he⟩ := except_bind_eq_ok.mp he
      obtain ⟨es', he2, he⟩ := except_bind_eq_ok.mp he
      cases he
      obtain ⟨hd0, h1, rfl⟩ := (C83_packet_octets_iff r hx.2.2.2.2.1 e).mp he1
      rw [List.flatten_cons] at hfl
      obtain ⟨hr, hs⟩ := framed_unique (headerOf_framed h1) (headerOf_framed hg) hfl
      have hr : r = ⟨g, t, c⟩ := hr
      subst hr
      obtain ⟨rs', es'', i1, i2, i3, i4⟩ := ih ⟨rs, es', hrest, he2, hs⟩
      obtain ⟨w1, w2⟩ := header_written hf
      obtain ⟨x1, x2, _, x4, _, x6⟩ := hx
      have hraw : p.raw fl (some f) = .ok ⟨f, t, c⟩ := by
        unfold KPacket.raw at x2 ⊢
        obtain ⟨c', hc', x2⟩ := except_bind_eq_ok.mp x2
        cases x2
        simp only [hc', except_bind_ok]
        rfl
      refine ⟨⟨f, t, c⟩ :: rs', (hd' ++ c) :: es'', .cons ⟨?_, ?_, rfl, x4, w2, x6⟩ i1, ?_, ?_, ?_⟩
      · unfold readPacket at x1 ⊢
        obtain ⟨b0, hb0, x1⟩ := except_bind_eq_ok.mp x1
        cases x1
        simp only [readBody_format f g, hb0, except_bind_ok]
        rfl
      · exact hraw
      · rw [List.mapM_cons, w1, i2]; rfl
      · rw [List.flatten_cons, i3]
      · rw [List.mapM_cons, hraw, i4]; rfl

theorem reheaded_fingerprint {sha1 : Bytes → Bytes} {good : Nat → Prop} {f : HeaderFormat} {data d' : Bytes} {fp : Str} (h : Reheaded f data d')
    (hfp : FileFingerprint sha1 good data fp) : FileFingerprint sha1 good d' fp := by
  obtain ⟨f0, t0, hd0, pub, tail, rest, ht, hhd, hpub, hdata, hfpe⟩ := hfp
  cases h with
  | nil =>
    have h3 := hdata.symm
    rw [List.append_assoc, List.append_eq_nil_iff] at h3
    exact absurd h3.1 (header_ne hhd)
  | @cons g t c hd hd' b b' hg hf hb =>
    obtain ⟨hr, _⟩ := framed_unique (headerOf_framed hg) (headerOf_framed hhd) hdata
    cases hr
    exact ⟨f, t0, hd', pub, tail, b', ht, hf, hpub, rfl, hfpe⟩

/-- C83 (part that holds): `serialize_key` with a header format gives, for a key read from octets in any formats, the same packets with headers in that format; these are read as
a key whose packets have the same bodies. -/
theorem C83_other_format_partial (magic : Bytes → Str) (fl : Nat → Nat) (hl : LogOnCounts fl) (good : Nat → Prop)
    (hg : ∀ i, good i → LogRoom fl i ∧ (0 < i → fl i = Nat.log2 i)) (F : HeaderFormat → Prop) (data out : Bytes) (h : AnyKeyFile magic F good data)
    (f : HeaderFormat) (hout : Reheaded f data out) :
    ∃ k k' ps ps', readKey magic data = .ok k ∧ serializeKey fl (some f) k = .ok out ∧ (f = .old → serializeKey fl none k = .ok out) ∧ readKey magic out = .ok k' ∧
      k.toPackets = .ok ps ∧ k'.toPackets = .ok ps' ∧ ps'.map KPacket.body = ps.map KPacket.body ∧ ∀ p ∈ ps', p.fmt = f := by
  have main : ∀ (secret : Bool) (ps : List KPacket), Rep magic F fl good data ps → KeySequence secret (ps.map KPacket.body) →
      ∃ k k' ps ps', readKey magic data = .ok k ∧ serializeKey fl (some f) k = .ok out ∧ (f = .old → serializeKey fl none k = .ok out) ∧ readKey magic out = .ok k' ∧
        k.toPackets = .ok ps ∧ k'.toPackets = .ok ps' ∧ ps'.map KPacket.body = ps.map KPacket.body ∧ ∀ p ∈ ps', p.fmt = f := by
    intro secret ps hr hs
    obtain ⟨rs, es, i1, i2, i3, i4⟩ := reheaded_rep hout hr
    have hb : (ps.map (KPacket.inFormat f)).map KPacket.body = ps.map KPacket.body := by
      rw [List.map_map]; rfl
    obtain ⟨k, r1, r2, _⟩ := rep_read_full hr hs
    obtain ⟨k', s1, s2, _⟩ := rep_read_full (⟨rs, es, i1, i2, i3⟩ : Rep magic (· = f) fl good out _) (secret := secret) (by rw [hb]; exact hs)
    have ho : k.octets fl (some f) = .ok out := by
      unfold TKey.octets joinPackets
      simp only [r2, except_bind_ok, i4, i2, except_pure, i3]
    refine ⟨k, k', ps, _, r1, ho, ?_, s1, r2, s2, hb, ?_⟩
    · rintro rfl; exact ho
    · intro p hp
      obtain ⟨q, _, rfl⟩ := List.mem_map.mp hp
      rfl
  rcases h with h | h
  · obtain ⟨ps, hr, hs⟩ := file_rep hg h
    exact main _ ps hr hs
  · obtain ⟨ps, hr, hs⟩ := secret_file_rep hl hg h
    exact main _ ps hr hs

/-- Facts about the key as given and as written. -/
theorem written_facts {fl : Nat → Nat} (hl : LogOnCounts fl) {good : Nat → Prop} (hg : GoodInts fl good) {H : Digest} (hH : ∀ d, (H 2 d).length = 20) {magic : Bytes → Str}
    {F : HeaderFormat → Prop} {d w : Bytes} {fp : Str} (h : AnyKeyFile magic F good d) (hfp : FileFingerprint (H 2) good d fp) {fmt : Option HeaderFormat} (hw : WrittenAs fmt d w) :
    ∃ k, readKey magic d = .ok k ∧ k.fingerprint fl H = .ok fp ∧ k.octets fl fmt = .ok w ∧ ∃ F' k' b', FileFacts fl H magic F' w fp k' b' ∧ fmt.getD b'.head.fmt = b'.head.fmt := by
  have main : ∀ (secret : Bool) (ps : List KPacket), Rep magic F fl good d ps → KeySequence secret (ps.map KPacket.body) →
      ∃ k, readKey magic d = .ok k ∧ k.fingerprint fl H = .ok fp ∧ k.octets fl fmt = .ok w ∧ ∃ F' k' b', FileFacts fl H magic F' w fp k' b' ∧ fmt.getD b'.head.fmt = b'.head.fmt := by
    intro secret ps hr hs
    obtain ⟨k, b, hk⟩ := rep_facts hg hH hr hs hfp
    cases fmt with
    | none =>
      cases hw
      exact ⟨k, hk.read, hk.fingerprint, hk.octets none fun _ _ => rfl, F, k, b, hk, rfl⟩
    | some f =>
      obtain ⟨rs, es, i1, i2, i3, i4⟩ := reheaded_rep hw hr
      have hb : (ps.map (KPacket.inFormat f)).map KPacket.body = ps.map KPacket.body := by
        rw [List.map_map]; rfl
      obtain ⟨k', b', hk'⟩ := rep_facts hg hH (⟨rs, es, i1, i2, i3⟩ : Rep magic (· = f) fl good w _) (secret := secret) (by rw [hb]; exact hs) (reheaded_fingerprint hw hfp)
      refine ⟨k, hk.read, hk.fingerprint, ?_, _, k', b', hk', hk'.format.symm⟩
      obtain ⟨k0, r1, r2, _⟩ := rep_read_full hr hs
      rw [hk.read] at r1
      cases r1
      unfold TKey.octets joinPackets
      simp only [r2, except_bind_ok, i4, i2, except_pure, i3]
  rcases h with h | h
  · obtain ⟨ps, hr, hs⟩ := file_rep hg h
    exact main _ ps hr hs
  · obtain ⟨ps, hr, hs⟩ := secret_file_rep hl hg h
    exact main _ ps hr hs

theorem formatOf_append {a : Bytes} {f : HeaderFormat} (h : formatOf a = some f) (b : Bytes) : formatOf (a ++ b) = some f := by
  cases a with
  | nil => cases h
  | cons x a => exact h

theorem import_written {fl : Nat → Nat} (hl : LogOnCounts fl) {good : Nat → Prop} (hg : GoodInts fl good) {H : Digest} (hH : ∀ d, (H 2 d).length = 20) {magic : Bytes → Str}
    {r : Keyring} {l : List (Bytes × Str)} (h : RingHolds fl H magic r l) (hro : r.readOnly = false) (hf : r.fmt = formatOf (l.map Prod.fst).flatten)
    {F : HeaderFormat → Prop} {d w : Bytes} {fp : Str} (hd : AnyKeyFile magic F good d) (hfp : FileFingerprint (H 2) good d fp) (hw : WrittenAs (formatOf (l.map Prod.fst).flatten) d w) :
    ∃ r', r.importFile fl H magic d = (.ok (), r') ∧ RingHolds fl H magic r' (l ++ [(w, fp)]) ∧ r'.readOnly = false ∧ r'.fmt = formatOf ((l ++ [(w, fp)]).map Prod.fst).flatten := by
  obtain ⟨k, k1, k2, k3, F', k', b', hk', hfmt⟩ := written_facts hl hg hH hd hfp hw
  obtain ⟨bs, h1, h2⟩ := h
  have h3 : List.Forall₂ (fun (x : Bytes × Str) b => ∃ F k, FileFacts fl H magic F x.1 x.2 k b) (l ++ [(w, fp)]) (bs ++ [b']) :=
    List.rel_append h1 (.cons ⟨_, k', hk'⟩ .nil)
  obtain ⟨w1, w2⟩ := ringHolds_wf h3
  obtain ⟨r', e1, e2, e3, e4⟩ := write_inSync (r := r) w1 (data := r.file ++ w) (by
    rw [h2.file, ringOctets_append, ← hk'.stored]; simp [ringOctets])
  refine ⟨r', ?_, ⟨_, h3, e2⟩, e4.trans hro, ?_⟩
  · unfold Keyring.importFile Keyring.store
    simp only [k1, k2]
    unfold Keyring.add
    have hlong : 8 < fp.length := by rw [hk'.long]; decide
    rw [if_neg (by rw [hro]; decide), h2.table, tableGet_long hlong, if_neg (by decide), hf]
    simp only [k3]
    exact e1
  · obtain ⟨s, s1, s2, s3, s4⟩ := open_holds h3 false
    rw [e3]
    have h4 := h2.fmt
    rw [List.map_append, List.flatten_append]
    cases hr : r.fmt with
    | some g =>
      rw [hr] at hf
      rw [formatOf_append hf.symm]
      rfl
    | none =>
      rw [hr] at h4
      cases h1 with
      | nil =>
        have := hk'.first []
        rw [List.append_nil] at this
        simp only [List.map_nil, List.flatten_nil, List.map_cons, List.flatten_cons, List.append_nil, List.nil_append, this]
        rfl
      | cons _ _ => cases h4

theorem imports_written {fl : Nat → Nat} (hl : LogOnCounts fl) {good : Nat → Prop} (hg : GoodInts fl good) {H : Digest} (hH : ∀ d, (H 2 d).length = 20) {magic : Bytes → Str}
    (new : List (Bytes × Bytes × Str)) :
    ∀ {r : Keyring} {l : List (Bytes × Str)}, RingHolds fl H magic r l → r.readOnly = false → r.fmt = formatOf (l.map Prod.fst).flatten →
      (∀ x ∈ new, (∃ F, AnyKeyFile magic F good x.1) ∧ FileFingerprint (H 2) good x.1 x.2.2) →
      (∀ a x b, new = a ++ x :: b → WrittenAs (formatOf ((l ++ a.map Prod.snd).map Prod.fst).flatten) x.1 x.2.1) →
      (r.importFiles fl H magic (new.map Prod.fst)).1 = new.map (fun _ => .ok ()) ∧ RingHolds fl H magic (r.importFiles fl H magic (new.map Prod.fst)).2 (l ++ new.map Prod.snd) := by
  induction new with
  | nil => intro r l h _ _ _ _; exact ⟨rfl, (List.append_nil l).symm ▸ h⟩
  | cons x new ih =>
    intro r l h hro hf hn hw
    obtain ⟨⟨F, hF⟩, hfp⟩ := hn x (.head _)
    obtain ⟨r', e1, e2, e3, e4⟩ := import_written hl hg hH h hro hf hF hfp (by simpa using hw [] x new rfl)
    obtain ⟨i1, i2⟩ := ih e2 e3 e4 (fun y hy => hn y (.tail _ hy)) fun a y b he => by
      have := hw (x :: a) y b (by rw [he]; rfl)
      rw [List.append_assoc]
      exact this
    rw [List.map_cons, Keyring.importFiles, e1]
    refine ⟨?_, ?_⟩
    · rw [List.map_cons, ← i1]
    · rw [List.append_assoc] at i2; exact i2

/-- C120 (part that holds), for keys in any packet formats: each key stored is appended to the file as the same packets with headers in the format of the file's first packet (as it
is, if the file is empty); then as before every key, old or new, is found as it was written. -/
theorem C120_rewrite_partial (magic : Bytes → Str) (fl : Nat → Nat) (hl : LogOnCounts fl) (good : Nat → Prop)
    (hg : ∀ i, good i → LogRoom fl i ∧ (0 < i → fl i = Nat.log2 i)) (H : Digest) (hH : ∀ d, (H 2 d).length = 20)
    (old : List (Bytes × Str)) (hold : ∀ x ∈ old, (∃ F, AnyKeyFile magic F good x.1) ∧ FileFingerprint (H 2) good x.1 x.2)
    (new : List (Bytes × Bytes × Str)) (hnew : ∀ x ∈ new, (∃ F, AnyKeyFile magic F good x.1) ∧ FileFingerprint (H 2) good x.1 x.2.2)
    (hw : ∀ a x b, new = a ++ x :: b → WrittenAs (formatOf ((old ++ a.map Prod.snd).map Prod.fst).flatten) x.1 x.2.1) :
    ∃ r l r', Keyring.open (keyInfo fl H) (old.map Prod.fst).flatten false = .ok r ∧ r.importFiles fl H magic (new.map Prod.fst) = (l, r') ∧
      l = new.map (fun _ => .ok ()) ∧ r'.file = ((old ++ new.map Prod.snd).map Prod.fst).flatten ∧
      ∀ s, s = r' ∨ (∃ ro, Keyring.open (keyInfo fl H) r'.file ro = .ok s) →
        (∀ before after d fp q, old ++ new.map Prod.snd = before ++ (d, fp) :: after → lastEight q = lastEight fp → (∀ x ∈ after, lastEight x.2 ≠ lastEight fp) →
          ∃ k, s.lookup fl H magic q = .ok k ∧ readKey magic d = .ok k ∧ k.octets fl none = .ok d ∧ k.fingerprint fl H = .ok fp) ∧
        ∀ q, (∀ x ∈ old ++ new.map Prod.snd, lastEight x.2 ≠ lastEight q) → s.lookup fl H magic q = .error .keyError := by
  obtain ⟨bs, hbs⟩ := old_blocks hl hg hH hold
  obtain ⟨r, o1, o2, o3, o4⟩ := open_holds hbs false
  obtain ⟨i1, i2⟩ := imports_written hl hg hH new o2 o3 o4 hnew hw
  refine ⟨r, _, _, o1, rfl, i1, ringHolds_file i2, fun s hs => ?_⟩
  have hs : RingHolds fl H magic s (old ++ new.map Prod.snd) := by
    rcases hs with rfl | ⟨ro, hs⟩
    · exact i2
    · rw [ringHolds_file i2] at hs
      obtain ⟨bs', h1, _⟩ := i2
      obtain ⟨s', h2, h3, _⟩ := open_holds h1 ro
      rw [h2] at hs
      cases hs
      exact h3
  exact ⟨fun before after d fp q he hq hlast => ringHolds_lookup (he ▸ hs) hq hlast, fun q hq => ringHolds_missing hs hq⟩

/-! ### Photos -/

theorem scan_raises {I : PacketInfo} (size : Nat) {s : Bytes} (hne : s ≠ []) (hs : ∀ fuel fmt t, Raises (scanLoop I size fuel s fmt t)) :
    ∀ {ps : List RawPacket}, (∀ p ∈ ps, Expressible p) → ∀ fuel fmt t, Raises (scanLoop I size fuel (packetsOctets ps ++ s) fmt t) := by
  intro ps
  induction ps with
  | nil => intro _ fuel fmt t; exact hs fuel fmt t
  | cons p ps ih =>
    intro h fuel fmt t
    obtain ⟨h1, h2⟩ := packetOctets_stream (h p (.head _))
    have ih := ih fun q hq => h q (.tail _ hq)
    have hn : packetsOctets (p :: ps) ++ s ≠ [] := by simp [hne]
    cases fuel with
    | zero => exact ⟨_, if_neg hn⟩
    | succ fuel =>
      rw [scanLoop, if_neg hn]
      unfold nextPacket
      rw [packetsOctets_cons, List.append_assoc, h2]
      simp only [except_bind_ok]
      cases I.check p with
      | error e => exact ⟨e, rfl⟩
      | ok u =>
        simp only [except_bind_ok, except_pure]
        split
        · cases I.keyId p with
          | error e => exact ⟨e, rfl⟩
          | ok k => exact ih _ _ _
        · exact ih _ _ _

theorem misread_key (n : Nat) {lo : UInt8} (hlo : lo ≠ 2 ∧ lo ≠ 3) (x y : UInt8) (rest : Bytes) :
    Raises (parsePubKey ((lo :: x :: y :: 1 :: 16 :: 0 :: rest).take n)) := by
  cases h : parsePubKey ((lo :: x :: y :: 1 :: 16 :: 0 :: rest).take n) with
  | error e => exact ⟨e, rfl⟩
  | ok v =>
    exfalso
    unfold parsePubKey at h
    obtain ⟨v, hv, h⟩ := except_bind_eq_ok.mp h
    obtain ⟨t, _, h⟩ := except_bind_eq_ok.mp h
    obtain ⟨⟨d, o⟩, hd, h⟩ := except_bind_eq_ok.mp h
    obtain ⟨a, ha, h⟩ := except_bind_eq_ok.mp h
    have hn : 6 ≤ n ∨ n < 6 := by omega
    have hv' : v = lo := by
      rcases n with _ | n
      · cases hv
      · cases hv; rfl
    subst hv'
    unfold readDays at hd
    rw [if_neg (by rintro (h | h); exacts [hlo.1 h, hlo.2 h])] at hd
    split at hd
    · cases hd
      rcases hn with hn | hn
      · obtain ⟨m, rfl⟩ : ∃ m, n = m + 6 := ⟨n - 6, by omega⟩
        have : a = 0 := by cases ha; rfl
        subst this
        cases h
      · have : ((v :: x :: y :: 1 :: 16 :: 0 :: rest).take n).drop 5 = [] := by
          rw [List.drop_eq_nil_iff, List.length_take]; omega
        unfold idx at ha
        rw [this] at ha
        cases ha
    · cases hd

theorem misread_photo (fl : FloorLog2) (H : Digest) (size : Nat) {hi lo : UInt8} (hhi : hi.toNat < 192) (hlo : lo ≠ 2 ∧ lo ≠ 3) (x y : UInt8) (rest : Bytes) :
    ∀ fuel fmt t, Raises (scanLoop (keyInfo fl H) size fuel (0xc5 :: hi :: lo :: x :: y :: 1 :: 16 :: 0 :: rest) fmt t) := by
  intro fuel fmt t
  cases fuel with
  | zero => exact ⟨_, rfl⟩
  | succ fuel =>
    rw [scanLoop, if_neg (by simp)]
    unfold nextPacket packetFromStream
    have h1 : newPacketLengthFromStream (hi :: lo :: x :: y :: 1 :: 16 :: 0 :: rest) = .ok (hi.toNat, false, lo :: x :: y :: 1 :: 16 :: 0 :: rest) := by
      unfold newPacketLengthFromStream
      simp only [readOrd, except_bind_ok, if_pos hhi, except_pure]
    have h2 : streamLoop ((0xc5 :: hi :: lo :: x :: y :: 1 :: 16 :: 0 :: rest).length + 1) (0xc5 :: hi :: lo :: x :: y :: 1 :: 16 :: 0 :: rest) none [] =
        .ok (⟨.new, 5, (lo :: x :: y :: 1 :: 16 :: 0 :: rest).take hi.toNat⟩, (lo :: x :: y :: 1 :: 16 :: 0 :: rest).drop hi.toNat) := by
      rw [streamLoop]
      simp only [readOrd, except_bind_ok, h1]
      rfl
    rw [h2]
    obtain ⟨e, he⟩ := misread_key hi.toNat hlo x y rest
    have h3 : (keyInfo fl H).check ⟨.new, 5, (lo :: x :: y :: 1 :: 16 :: 0 :: rest).take hi.toNat⟩ = .error e := by
      show (do let _ ← readPacket _; return () : Py Unit) = _
      unfold readPacket readBody
      rw [dif_neg (by simp), dif_pos (.inl rfl)]
      unfold parseSecKey
      rw [he]
      rfl
    refine ⟨e, ?_⟩
    simp only [except_bind_ok, h3]
    rfl

theorem photo_octets {c e : Bytes} (h1 : 256 ≤ c.length) (h2 : c.length < 49152) (h : Packet.toBytes 1 ⟨.old, 17, c⟩ = .ok e) :
    e = 0xc5 :: UInt8.ofNat (c.length / 256) :: UInt8.ofNat (c.length % 256) :: c := by
  have h3 : oldPacketLengthToBytes c.length = (1, [c.length / 256, c.length % 256]) := by
    unfold oldPacketLengthToBytes
    rw [if_neg (by omega), if_pos (by omega), Nat.shiftRight_eq_div_pow, show (0xff : Nat) = 2 ^ 8 - 1 from rfl, Nat.and_two_pow_sub_one_eq_mod]
  unfold Packet.toBytes at h
  simp only [h3, byteOf_lt (show 0x80 + 17 <<< 2 + 1 < 256 by decide), except_bind_ok, except_pure, extendInts, List.mapM_cons, List.mapM_nil,
    byteOf_lt (show c.length / 256 < 256 by omega), byteOf_lt (show c.length % 256 < 256 by omega), Except.ok.injEq] at h
  rw [← h]
  rfl

/-- C120 (refuted): if the keyring file's first packet has an old-format header and the key has an image of between 256 octets and 48 kilobytes, storing the key writes it to
the file, then raises, and from then on the file cannot be opened: the other keys in it are out of reach. (The image packet is written with the header octet 0xc5, which reads
as a secret key packet. Excepted are lengths equal to 2 or 3 modulo 256, where the octets may even pass for a key packet.) -/
theorem C120_photo_import_refuted (magic : Bytes → Str) (fl : Nat → Nat) (hl : LogOnCounts fl) (good : Nat → Prop)
    (hg : ∀ i, good i → LogRoom fl i ∧ (0 < i → fl i = Nat.log2 i)) (H : Digest) (hH : ∀ d, (H 2 d).length = 20)
    (old : List (Bytes × Str)) (hold : ∀ x ∈ old, (∃ F, AnyKeyFile magic F good x.1) ∧ FileFingerprint (H 2) good x.1 x.2)
    (hf : formatOf (old.map Prod.fst).flatten = some .old)
    (F : HeaderFormat → Prop) (data : Bytes) (fp : Str) (hdata : AnyKeyFile magic F good data) (hfp : FileFingerprint (H 2) good data fp)
    (k : TKey) (hread : readKey magic data = .ok k) (pre post : List KPacket) (image : KPacket) (hps : k.toPackets = .ok (pre ++ image :: post))
    (hpre : ∀ p ∈ pre, p.body.type ≠ 17 ∧ ∀ c, p.body.content fl = .ok c → c.length < 2 ^ 24) (hty : image.body.type = 17)
    (x y : UInt8) (rest : Bytes) (hc : image.body.content fl = .ok (x :: y :: 1 :: 16 :: 0 :: rest))
    (hlen : 256 ≤ rest.length + 5 ∧ rest.length + 5 < 49152) (hmod : (rest.length + 5) % 256 ≠ 2 ∧ (rest.length + 5) % 256 ≠ 3)
    (out : Bytes) (hout : k.octets fl (some .old) = .ok out) :
    ∃ r e r', Keyring.open (keyInfo fl H) (old.map Prod.fst).flatten false = .ok r ∧ r.importFile fl H magic data = (.error e, r') ∧
      r'.file = (old.map Prod.fst).flatten ++ out ∧ ∀ ro, Raises (Keyring.open (keyInfo fl H) r'.file ro) := by
  obtain ⟨k', b, hd⟩ := any_file_facts hl hg hH hdata hfp
  have hkk : k' = k := by
    have := hd.read
    rw [hread] at this
    cases this; rfl
  subst hkk
  obtain ⟨bs, hbs⟩ := old_blocks hl hg hH hold
  obtain ⟨r, o1, o2, o3, o4⟩ := open_holds hbs false
  rw [hf] at o4
  have hfile := ringHolds_file o2
  -- what is written
  have hrs : ∃ rs es, (pre ++ image :: post).mapM (KPacket.raw fl (some .old)) = .ok rs ∧ rs.mapM (Packet.toBytes 1) = .ok es ∧ out = es.flatten := by
    exact serializeKey_octets hps hout
  obtain ⟨rs, es, hrs, hes, rfl⟩ := hrs
  obtain ⟨rpre, rest', rfl, hf1, hf2⟩ := forall₂_split (mapM_ok_forall₂ hrs)
  obtain ⟨q, rpost, hq, hf2, rfl⟩ := List.forall₂_cons_left_iff.mp hf2
  have hx : ∀ r ∈ rpre, Expressible r := by
    intro r hr
    obtain ⟨p, hp, hpr⟩ := forall₂_mem_right hf1 r hr
    unfold KPacket.raw at hpr
    obtain ⟨c, hc, hpr⟩ := except_bind_eq_ok.mp hpr
    cases hpr
    exact .inr ⟨rfl, kbody_type_lt hc (hpre p hp).1, (hpre p hp).2 c hc⟩
  have hqq : q = ⟨.old, 17, x :: y :: 1 :: 16 :: 0 :: rest⟩ := by
    unfold KPacket.raw at hq
    rw [hc, hty] at hq
    cases hq
    rfl
  obtain ⟨b1, b2, rfl, g1, g2⟩ := forall₂_split (mapM_ok_forall₂ hes)
  obtain ⟨e, er, ge, g2, rfl⟩ := List.forall₂_cons_left_iff.mp g2
  have hb1 : b1.flatten = packetsOctets rpre := by
    clear hf1 hx hrs hes hout
    induction g1 with
    | nil => rfl
    | cons h _ ih => rw [List.flatten_cons, ih, packetsOctets_cons, packetOctets, h]
  rw [hqq] at ge
  have he := photo_octets (c := x :: y :: 1 :: 16 :: 0 :: rest) hlen.1 hlen.2 ge
  have hbad : ∀ size fuel fmt t, Raises (scanLoop (keyInfo fl H) size fuel ((old.map Prod.fst).flatten ++ (b1 ++ e :: er).flatten) fmt t) := by
    intro size fuel fmt t
    obtain ⟨w1, w2⟩ := ringHolds_wf hbs
    have heq : (old.map Prod.fst).flatten ++ (b1 ++ e :: er).flatten = packetsOctets (bs.flatMap KeyBlock.packets ++ rpre) ++ (e ++ er.flatten) := by
      rw [← w2, ringOctets_packets, List.flatten_append, hb1, List.flatten_cons]
      simp only [packetsOctets, List.flatMap_append, List.append_assoc]
    rw [heq]
    have hl : (x :: y :: 1 :: 16 :: 0 :: rest).length = rest.length + 5 := rfl
    have hne : ∀ m : Nat, m < 256 → ∀ j : Nat, j < 256 → m ≠ j → UInt8.ofNat m ≠ UInt8.ofNat j := by
      intro m hm j hj h h'
      have := congrArg UInt8.toNat h'
      rw [toNat_ofNat_lt hm, toNat_ofNat_lt hj] at this
      exact h this
    refine scan_raises size (by rw [he]; simp) ?_ ?_ fuel fmt t
    · rw [he, hl]
      refine misread_photo fl H size ?_ ⟨hne _ (by omega) 2 (by decide) hmod.1, hne _ (by omega) 3 (by decide) hmod.2⟩ x y (rest ++ er.flatten)
      rw [toNat_ofNat_lt (by omega)]
      omega
    · intro p hp
      rcases List.mem_append.mp hp with hp | hp
      · obtain ⟨b, hb, hp⟩ := List.mem_flatMap.mp hp
        exact (w1 b hb).expressible p hp
      · exact hx p hp
  have hup : ∀ s : Keyring, s.file = (old.map Prod.fst).flatten ++ (b1 ++ e :: er).flatten → Raises (s.updateTable (keyInfo fl H)) := by
    intro s hs
    unfold Keyring.updateTable
    rw [hs]
    obtain ⟨err, h⟩ := hbad ((old.map Prod.fst).flatten ++ (b1 ++ e :: er).flatten).length ((old.map Prod.fst).flatten ++ (b1 ++ e :: er).flatten).length s.fmt []
    exact ⟨err, by rw [h]; rfl⟩
  obtain ⟨err, herr⟩ := hup { r with file := r.file ++ (b1 ++ e :: er).flatten } (by rw [hfile])
  refine ⟨r, err, { r with file := r.file ++ (b1 ++ e :: er).flatten }, o1, ?_, by rw [hfile], fun ro => hup _ (by rw [hfile])⟩
  unfold Keyring.importFile Keyring.store
  simp only [hd.read, hd.fingerprint]
  unfold Keyring.add
  have hlong : 8 < fp.length := by rw [hd.long]; decide
  obtain ⟨bs', _, h2⟩ := o2
  have htab : tableGet r.table fp = none := by rw [h2.table]; exact tableGet_long hlong
  have hoct : k'.octets fl r.fmt = .ok (b1 ++ e :: er).flatten := by rw [o4]; exact hout
  rw [if_neg (by rw [o3]; decide), htab, if_neg (by decide)]
  simp only [hoct]
  unfold Keyring.write
  simp only [herr]

/-! ### Examples -/

private def exImportFp (H : Digest) : Str := hexText (H 2 ([0x99] ++ beBytes 2 exKeyOctets.length ++ exKeyOctets))

private theorem exFile_fingerprint (H : Digest) (f : HeaderFormat) : FileFingerprint (H 2) (· < 4096) (exFile f) (exImportFp H) :=
  ⟨f, 6, [UInt8.ofNat ((if f = .new then 0xc0 + 6 else 0x80 + 4 * 6)), 13], exKeyOctets, [], _, .inl rfl, exHeader rfl (by decide) (by decide) (by decide), exKeyOctets_ok, rfl, rfl⟩

private theorem exOld (magic : Bytes → Str) (H : Digest) : ∀ x ∈ [(exFile .old, exImportFp H)],
    (∃ F, AnyKeyFile magic F (· < 4096) x.1) ∧ FileFingerprint (H 2) (· < 4096) x.1 x.2 := by
  intro x hx
  rw [List.mem_singleton] at hx
  subst hx
  exact ⟨⟨_, .inl (exFile_ok magic .old)⟩, exFile_fingerprint H .old⟩

example (magic : Bytes → Str) (H : Digest) (hH : ∀ d, (H 2 d).length = 20) := C120_import_partial magic Nat.log2 (fun _ _ _ => rfl) (· < 4096) exGood H hH .old
  [(exFile .old, exImportFp H)] (exOld magic H) rfl [(exFile .old, exImportFp H), (exSecretFile .old, exImportFp H)] (by
    intro x hx
    simp only [List.mem_cons, List.not_mem_nil, or_false] at hx
    rcases hx with rfl | rfl
    · exact ⟨.inl (exFile_ok magic .old), exFile_fingerprint H .old⟩
    · exact ⟨.inr (exSecretFile_ok magic .old), ⟨.old, 5, [UInt8.ofNat (0x80 + 4 * 5), 44], exKeyOctets,
        ((254 : UInt8) :: 7 :: (Specifier.salted 8 [1, 2, 3, 4, 5, 6, 7, 8]).octets ++ List.replicate 16 9 ++ [1, 2, 3]), _, .inr rfl, exHeader rfl (by decide) (by decide) (by decide), exKeyOctets_ok, rfl, rfl⟩⟩)

/-- The example key with headers in another format. -/
theorem exReheaded (f g : HeaderFormat) : Reheaded g (exFile f) (exFile g) := by
  have step : ∀ (t : Nat) (n : UInt8) (c b b' : Bytes), n.toNat = c.length → 0 < c.length → c.length < 192 → t < 16 → Reheaded g b b' →
      Reheaded g (exPacket f t n c ++ b) (exPacket g t n c ++ b') := fun t n c b b' h0 h1 h2 h3 h =>
    .cons (exHeader h0 h1 h2 h3) (exHeader h0 h1 h2 h3) h
  have hsig : ∀ t : UInt8, (19 : UInt8).toNat = (exSigPlain t).length ∧ 0 < (exSigPlain t).length ∧ (exSigPlain t).length < 192 := fun t => by
    have : (exSigPlain t).length = 19 := by
      simp only [exSigPlain, exSigOctets, List.length_append, List.length_cons, beBytes_length]
      decide
    rw [this]; decide
  unfold exFile
  simp only [List.append_assoc, List.nil_append]
  exact step _ _ _ _ _ rfl (by decide) (by decide) (by decide) (step _ _ _ _ _ (hsig _).1 (hsig _).2.1 (hsig _).2.2 (by decide)
    (step _ _ _ _ _ rfl (by decide) (by decide) (by decide) (step _ _ _ _ _ (hsig _).1 (hsig _).2.1 (hsig _).2.2 (by decide)
      (step _ _ _ _ _ rfl (by decide) (by decide) (by decide) (step _ _ _ _ _ (hsig _).1 (hsig _).2.1 (hsig _).2.2 (by decide) .nil)))))

example (magic : Bytes → Str) (f g : HeaderFormat) := C83_other_format_partial magic Nat.log2 (fun _ _ _ => rfl) (· < 4096) exGood (· = f) (exFile f) (exFile g) (.inl (exFile_ok magic f)) g (exReheaded f g)

/-- A new-format key is stored in an empty file, then an old-format key behind it. -/
example (magic : Bytes → Str) (H : Digest) (hH : ∀ d, (H 2 d).length = 20) := C120_rewrite_partial magic Nat.log2 (fun _ _ _ => rfl) (· < 4096) exGood H hH
  [] (by simp) [(exFile .new, exFile .new, exImportFp H), (exFile .old, exFile .new, exImportFp H)] (by
    intro x hx
    simp only [List.mem_cons, List.not_mem_nil, or_false] at hx
    rcases hx with rfl | rfl
    · exact ⟨⟨_, .inl (exFile_ok magic .new)⟩, exFile_fingerprint H .new⟩
    · exact ⟨⟨_, .inl (exFile_ok magic .old)⟩, exFile_fingerprint H .old⟩) (by
    intro a x b he
    match a, he with
    | [], he => cases he; rfl
    | [_], he => cases he; exact exReheaded .old .new
    | _ :: _ :: _ :: _, he => simp at he
    | [_, _], he => simp at he)

/-- A key with a photo of 281 octets, 300 with its header. -/
private def exPhotoBody : Bytes := [1, 16, 0, 1, 1] ++ List.replicate 12 0 ++ List.replicate 281 7
private def exPhotoFile : Bytes := exPacket .new 6 13 exKeyOctets ++ ([0xd1, 192, 108] ++ ([192, 106] ++ exPhotoBody))
private def exPhotoTKey : TKey :=
  ⟨(⟨.new, .key false false (mkPubKey 4 1000 1 none (.rsa 3233 17)) none⟩, []), [], [(⟨.new, .attr [(exPhotoMime, List.replicate 281 7)]⟩, [])], []⟩
set_option maxRecDepth 20000 in
private theorem exPhotoRead : readKey (fun _ => exPhotoMime) exPhotoFile = .ok exPhotoTKey := rfl

private theorem shortest_two {l : Bytes} {n : Nat} (h : NewDefinite l n) (hl : l.length = 2) (hn : 192 ≤ n) : Shortest l n := by
  refine ⟨h, fun l' h' => ?_⟩
  rw [hl]
  cases h' with
  | one a ha => omega
  | two a b _ _ => exact Nat.le_refl _
  | five a b c d => simp

set_option maxRecDepth 20000 in
private theorem exPhotoFile_ok : PublicKeyFile (fun _ => exPhotoMime) (· = .new) (· < 4096) exPhotoFile := by
  have key : PacketOf (· = .new) 6 (KeyWire (· < 4096)) (exPacket .new 6 13 exKeyOctets) := ⟨.new, _, _, rfl, exKeyOctets_ok, exHeader rfl (by decide) (by decide) (by decide), rfl⟩
  have img : ImageWire (fun _ => exPhotoMime) ([192, 106] ++ exPhotoBody) :=
    ⟨[192, 106], List.replicate 281 7, 1, shortest_two (.two 192 106 (by decide) (by decide)) rfl (by decide), .inl rfl, rfl⟩
  have att : PacketOf (· = .new) 17 (Cat (ImageWire fun _ => exPhotoMime)) ([0xd1, 192, 108] ++ ([192, 106] ++ exPhotoBody)) :=
    ⟨.new, [0xd1, 192, 108], _, rfl, cat_one img, ⟨by decide, by decide, [192, 108], shortest_two (.two 192 108 (by decide) (by decide)) rfl (by decide), rfl⟩, rfl⟩
  exact ⟨_, [], [], _, [], key, ⟨[], by simp, rfl⟩, ⟨[], by simp, rfl⟩, cat_one ⟨_, [], att, ⟨[], by simp, rfl⟩, rfl⟩, ⟨[], by simp, rfl⟩, by simp [exPhotoFile]⟩

private def exPhotoTail : Bytes := [1, 1] ++ List.replicate 12 0 ++ List.replicate 281 7

set_option maxRecDepth 20000 in
example (H : Digest) (hH : ∀ d, (H 2 d).length = 20) := C120_photo_import_refuted (fun _ => exPhotoMime) Nat.log2 (fun _ _ _ => rfl) (· < 4096) exGood H hH
  [(exFile .old, exImportFp H)] (exOld _ H) rfl _ exPhotoFile (exImportFp H) (.inl exPhotoFile_ok)
  ⟨.new, 6, [UInt8.ofNat (0xc0 + 6), 13], exKeyOctets, [], _, .inl rfl, exHeader rfl (by decide) (by decide) (by decide), exKeyOctets_ok, rfl, rfl⟩
  exPhotoTKey exPhotoRead [⟨.new, .key false false (mkPubKey 4 1000 1 none (.rsa 3233 17)) none⟩] [] ⟨.new, .attr [.image 1 16 (some 1) (List.replicate 281 7)]⟩ rfl
  (by
    intro p hp
    rw [List.mem_singleton] at hp
    subst hp
    refine ⟨by decide, fun c hc => ?_⟩
    have : c = exKeyOctets := (Except.ok.inj hc).symm
    subst this; decide) rfl 192 106 exPhotoTail rfl (by decide) (by decide) _ rfl

end Pgp.Props
