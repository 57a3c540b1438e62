import Verif.Lemmas.SettleKey
import Verif.Props.SigMeaning
/-
Property theorems C122: what was read and written once is read again and written with the same octets.
-/
namespace Pgp.Props
open Spec

/-- C122 (part that holds): take any octets that are read as a key, and write the key.  What is written is read again, and written with the same octets.  Nothing is
assumed of the octets that came in - loosely written integers, unused parts, reserved flags, other ways to give lengths, user ids that are not UTF-8, packets after a trust
packet may all be lost the first time, but not later.  Assumed of what is written: signatures without regular expressions and additional recipients, integers that
are `good`, and packets that can be framed. -/
theorem C122_key_partial (magic : Bytes → Str) (hmagic : ∀ d, '/' ∈ magic d) (fl : Nat → Nat) (hl : LogOnCounts fl) (good : Nat → Prop)
    (hg : ∀ i, good i → LogRoom fl i ∧ (0 < i → fl i = Nat.log2 i)) (hf : Option HeaderFormat) (data out : Bytes) (k : TKey) (ps : List KPacket)
    (hread : readKey magic data = .ok k) (hps : k.toPackets = .ok ps) (hout : k.octets fl hf = .ok out)
    (hs : ∀ p ∈ ps, BodyStorable fl good p.body) (hx : ∀ p ∈ ps, ∀ r, p.raw fl hf = .ok r → Expressible r) :
    ∃ k', readKey magic out = .ok k' ∧ k'.octets fl hf = .ok out := by
  unfold readKey at hread
  obtain ⟨rs, h1, hread⟩ := except_bind_eq_ok.mp hread
  obtain ⟨ps0, h2, hread⟩ := except_bind_eq_ok.mp hread
  obtain ⟨cls, _, hread⟩ := except_bind_eq_ok.mp hread
  obtain ⟨pre, rest, rfl, hval, hw⟩ := written_prefix hread hps
  have hbody : ∀ p ∈ pre, ∃ r, readBody r = .ok p.body := by
    intro p hp
    obtain ⟨r, _, hr⟩ := forall₂_mem_right (mapM_ok_forall₂ h2) p (List.mem_append_left _ hp)
    unfold readPacket at hr
    obtain ⟨b, hb, hr⟩ := except_bind_eq_ok.mp hr
    cases hr
    exact ⟨r, hb⟩
  unfold TKey.octets at hout
  rw [hps, except_bind_ok] at hout
  obtain ⟨rs', h3, hout⟩ := except_bind_eq_ok.mp hout
  unfold joinPackets at hout
  obtain ⟨es, h4, hout⟩ := except_bind_eq_ok.mp hout
  cases hout
  have key : ∀ {pre ps : List KPacket} {rs' : List RawPacket}, (∀ p ∈ pre, ∃ r, readBody r = .ok p.body) → List.Forall₂ (WrittenP magic) pre ps →
      List.Forall₂ (fun p r => p.raw fl hf = .ok r) ps rs' → (∀ p ∈ ps, BodyStorable fl good p.body) → (∀ p ∈ ps, ∀ r, p.raw fl hf = .ok r → Expressible r) →
      ∃ ps', List.Forall₂ (Holds magic (fun g => hf.getD g = g) fl good) rs' ps' ∧ List.Forall₂ SameKind (pre.map KPacket.body) (ps'.map KPacket.body) := by
    intro pre ps rs' hb hw
    clear hval hread h2 h3 h4 hs hx hbody hps
    induction hw generalizing rs' with
    | nil => intro hr _ _; cases hr; exact ⟨[], .nil, .nil⟩
    | @cons p q l1 l2 hpq _ ih =>
      intro hr hs hx
      cases hr with
      | @cons _ r' _ rs'' hqr hrs =>
        obtain ⟨ps', i1, i2⟩ := ih (fun p hp => hb p (List.mem_cons_of_mem _ hp)) hrs (fun p hp => hs p (List.mem_cons_of_mem _ hp))
          (fun p hp => hx p (List.mem_cons_of_mem _ hp))
        obtain ⟨r, hbr⟩ := hb p List.mem_cons_self
        have hex := hx q List.mem_cons_self r' hqr
        unfold KPacket.raw at hqr
        obtain ⟨c, hc, hqr⟩ := except_bind_eq_ok.mp hqr
        cases hqr
        obtain ⟨b, ⟨s1, s2, s3, s4, s5⟩, hk⟩ := body_settles hmagic hl hg hbr hpq.2 (hs q List.mem_cons_self) hc
        have k1 := written_kind hpq.2
        refine ⟨⟨hf.getD q.fmt, b⟩ :: ps', .cons ⟨?_, ?_, ?_, s4, hex, s5⟩ i1, .cons ⟨k1.1.trans hk.1, k1.2.1.trans hk.2.1, k1.2.2.trans hk.2.2⟩ i2⟩
        · simp only [readPacket, s1, except_bind_ok, except_pure]
        · simp only [KPacket.raw, s2, s3, except_bind_ok, except_pure, Option.getD_none]
        · cases hf <;> rfl
  obtain ⟨ps', k1, k2⟩ := key hbody hw (mapM_ok_forall₂ h3) hs hx
  rw [kind_validate k2] at hval
  obtain ⟨k', r1, _, r2⟩ := rep_read ⟨rs', es, k1, h4, rfl⟩ ((validateKey_iff _ _).mp hval)
  exact ⟨k', r1, r2 hf fun f hF => hF⟩

/-- C122 (part that holds): the same for `serialize_key`, with any choice of header format. -/
theorem C122_serialize_key_partial (magic : Bytes → Str) (hmagic : ∀ d, '/' ∈ magic d) (fl : Nat → Nat) (hl : LogOnCounts fl) (good : Nat → Prop)
    (hg : ∀ i, good i → LogRoom fl i ∧ (0 < i → fl i = Nat.log2 i)) (format : Option HeaderFormat) (data out : Bytes) (k : TKey) (ps : List KPacket)
    (hread : readKey magic data = .ok k) (hps : k.toPackets = .ok ps) (hout : serializeKey fl format k = .ok out)
    (hs : ∀ p ∈ ps, BodyStorable fl good p.body) (hx : ∀ p ∈ ps, ∀ r, p.raw fl (some (format.getD .old)) = .ok r → Expressible r) :
    ∃ k', readKey magic out = .ok k' ∧ serializeKey fl format k' = .ok out :=
  C122_key_partial magic hmagic fl hl good hg _ data out k ps hread hps hout hs hx

/-- C122 (part that holds): a signature packet.  Whatever its octets were, what is written for it is read and written again with the same octets. -/
theorem C122_signature_partial (fl : Nat → Nat) (good : Nat → Prop) (hg : ∀ i, good i → LogRoom fl i ∧ (0 < i → fl i = Nat.log2 i)) (data out : Bytes) (s : Sig)
    (hread : parseSig data = .ok s) (hs : SigStorable fl good s) (hout : Sig.content fl s = .ok out) :
    ∃ s', parseSig out = .ok s' ∧ Sig.content fl s' = .ok out :=
  C82_signature_octets_kept_partial fl good hg out (sig_settles hg hs data hread out hout)

/-! ### What does not settle -/

theorem plain_type {ty : Nat} {d : Bytes} {v : Plain} (h : parsePlain ty d = .ok v) : v.type = ty := by
  unfold parsePlain at h
  split at h
  all_goals first
    | (cases h; rfl)
    | (obtain ⟨_, _, h⟩ := except_bind_eq_ok.mp h; cases h; rfl)
    | (unfold readTrust at h; iterate 3 obtain ⟨_, _, h⟩ := except_bind_eq_ok.mp h
       cases h; rfl)
    | (unfold readRegex at h; iterate 2 obtain ⟨_, _, h⟩ := except_bind_eq_ok.mp h
       cases h; rfl)
    | (unfold readAdditionalRecipient at h; iterate 3 obtain ⟨_, _, h⟩ := except_bind_eq_ok.mp h
       cases h; rfl)
    | (unfold readRevocationKey at h; obtain ⟨_, _, h⟩ := except_bind_eq_ok.mp h; cases h)
    | (unfold readIssuer at h; iterate 2 obtain ⟨_, _, h⟩ := except_bind_eq_ok.mp h
       cases h; rfl)
    | (unfold readNote at h; iterate 7 obtain ⟨_, _, h⟩ := except_bind_eq_ok.mp h
       cases h; rfl)
    | (unfold readReason at h; obtain ⟨_, _, h⟩ := except_bind_eq_ok.mp h; cases h; rfl)
    | (unfold readTarget at h; iterate 5 obtain ⟨_, _, h⟩ := except_bind_eq_ok.mp h
       cases h; rfl)

theorem subs_raw_written {fl : Nat → Nat} : ∀ {l : List Sub} {e : Bytes}, (∀ s ∈ l, SubRead s) → subsBytes fl l = .ok e →
    ∃ rs, RawSubs rs e ∧ ∀ c v, Sub.plain c v ∈ l → ∃ b, v.content = .ok b ∧ ⟨v.type, c, b⟩ ∈ rs := by
  intro l
  induction l with
  | nil => intro e _ he; rw [subsBytes] at he; cases he; exact ⟨[], .nil, by simp⟩
  | cons s l ih =>
    intro e hr he
    rw [subsBytes] at he
    obtain ⟨a, h1, he⟩ := except_bind_eq_ok.mp he
    obtain ⟨b, h2, he⟩ := except_bind_eq_ok.mp he
    cases he
    obtain ⟨rs, i1, i2⟩ := ih (fun s hs => hr s (by simp [hs])) h2
    have hs := hr s (by simp)
    cases s with
    | plain c v =>
      obtain ⟨ty, d, h3, _, h4⟩ := hs
      rw [Sub.toBytes] at h1
      obtain ⟨x, h5, h1⟩ := except_bind_eq_ok.mp h1
      have h6 : v.type < 128 := by rw [plain_type h4]; exact h3
      obtain ⟨l', h7, rfl⟩ := subBytes_ok h6 h1
      refine ⟨⟨v.type, c, x⟩ :: rs, .cons (r := ⟨v.type, c, x⟩) h7 h6 i1, fun c' v' hm => ?_⟩
      rcases List.mem_cons.mp hm with hm | hm
      · cases hm; exact ⟨x, h5, by simp⟩
      · obtain ⟨b, j1, j2⟩ := i2 c' v' hm
        exact ⟨b, j1, by simp [j2]⟩
    | embedded c sig =>
      rw [Sub.toBytes] at h1
      obtain ⟨x, h5, h1⟩ := except_bind_eq_ok.mp h1
      obtain ⟨l', h7, rfl⟩ := subBytes_ok (by decide) h1
      refine ⟨⟨32, c, x⟩ :: rs, .cons (r := ⟨32, c, x⟩) h7 (show 32 < 128 by decide) i1, fun c' v' hm => ?_⟩
      rcases List.mem_cons.mp hm with hm | hm
      · cases hm
      · obtain ⟨b, j1, j2⟩ := i2 c' v' hm
        exact ⟨b, j1, by simp [j2]⟩

theorem mapM_mem_raises {α β : Type} {f : α → Py β} : ∀ {l : List α} {x : α}, x ∈ l → Raises (f x) → Raises (l.mapM f) := by
  intro l
  induction l with
  | nil => intro x hx; cases hx
  | cons y l ih =>
    intro x hx hr
    rw [List.mapM_cons]
    cases hy : f y with
    | error e => exact ⟨e, rfl⟩
    | ok z =>
      rcases List.mem_cons.mp hx with rfl | hx
      · rw [hy] at hr; obtain ⟨e, he⟩ := hr; cases he
      · obtain ⟨e, he⟩ := ih hx hr
        exact ⟨e, by rw [he]; rfl⟩

theorem pattern_content {pat : Bytes} (hz : pat.getLast? ≠ some 0) : (asciiEncodeReplace (asciiDecodeReplace pat)).getLast? ≠ some 0 := by
  unfold asciiEncodeReplace asciiDecodeReplace
  rw [List.map_map, List.getLast?_map]
  cases h : pat.getLast? with
  | none => simp
  | some x =>
    simp only [Option.map_some, ne_eq, Option.some.injEq]
    have hx : x ≠ 0 := by rintro rfl; exact hz h
    have : ∀ n : Fin 256, UInt8.ofNat n.val ≠ 0 → ((fun c : Char => if c.toNat < 128 then UInt8.ofNat c.toNat else 0x3f) ∘
        fun x : UInt8 => if x.toNat < 128 then Char.ofNat x.toNat else replacementChar) (UInt8.ofNat n.val) ≠ 0 := by decide +kernel
    have h2 := this ⟨x.toNat, x.toNat_lt⟩
    simp only [UInt8.ofNat_toNat] at h2
    exact h2 hx

/-- C122 fails for regular expressions: a signature with one is read, but what is written for it cannot be read - the zero octet at the end is not written. -/
theorem C122_pattern_unreadable_refuted (fl : Nat → Nat) (t p h : UInt8) (hashed unhashed : List RawSub) (left : Bytes) (values : List Nat) (b e : Bytes) (s : Sig)
    (hr : SigRaw t p h hashed unhashed left values b) (hv : ∀ i ∈ values, i < 2 ^ 65535 ∧ (0 < i → fl i = Nat.log2 i)) (critical : Bool) (pat : Bytes)
    (hpat : ⟨6, critical, pat ++ [0]⟩ ∈ hashed) (hz : pat.getLast? ≠ some 0) (hread : parseSig b = .ok s) (hout : Sig.content fl s = .ok e)
    (hlen : e.length < 65536) : Raises (parseSig e) := by
  have hleft : left.length = 2 := by obtain ⟨_, _, _, _, _, _, _, hl, _⟩ := hr; exact hl
  have hread' := hread
  rw [parseSig_raw hr] at hread
  obtain ⟨hs, h1, hread⟩ := except_bind_eq_ok.mp hread
  obtain ⟨us, h2, hread⟩ := except_bind_eq_ok.mp hread
  cases hread
  obtain ⟨_, _, _, _, r1, r2, _⟩ := sig_read hread'
  rw [Sig.content, byteOf_lt (show 4 < 256 by decide), sigValues_mpis fun i hi => (hv i hi).2] at hout
  simp only [byteOf_toNat, except_bind_ok] at hout
  obtain ⟨hd, h3, hout⟩ := except_bind_eq_ok.mp hout
  obtain ⟨ud, h4, hout⟩ := except_bind_eq_ok.mp hout
  cases hout
  obtain ⟨rs, i1, i2⟩ := subs_raw_written r1 h3
  obtain ⟨rs', j1, _⟩ := subs_raw_written r2 h4
  simp only [List.length_append] at hlen
  have hraw : SigRaw t p h rs rs' left values
      ([4, t, p, h] ++ beBytes 2 hd.length ++ hd ++ beBytes 2 ud.length ++ ud ++ left ++ (values.map mpi).flatten) :=
    ⟨hd, ud, values.map mpi, i1, j1, by omega, by omega, hleft, by
      rw [List.forall₂_map_right_iff]
      exact List.forall₂_same.mpr fun i hi => looseMpi_mpi (hv i hi).1, rfl⟩
  have hgoal := parseSig_raw hraw
  rw [intTo2byte_eq, intTo2byte_eq]
  show Raises (parseSig _)
  have e4 : [UInt8.ofNat 4, t, p, h] = [4, t, p, h] := rfl
  rw [e4, hgoal]
  have hmem : Sub.plain critical (.regex (asciiDecodeReplace pat)) ∈ hs := by
    obtain ⟨x, hx, hxx⟩ := forall₂_mem_right (mapM_ok_forall₂ h1).flip _ hpat
    have : readRaw ⟨6, critical, pat ++ [0]⟩ = .ok (.plain critical (.regex (asciiDecodeReplace pat))) := by
      have hp : parsePlain 6 (pat ++ [0]) = .ok (.regex (asciiDecodeReplace pat)) := by
        show readRegex (pat ++ [0]) = _
        unfold readRegex
        simp [pyAssert]
      unfold readRaw readSub
      simp only [hp]; rfl
    rw [this] at hxx
    cases hxx
    exact hx
  obtain ⟨c, k1, k2⟩ := i2 _ _ hmem
  cases k1
  have hbad : Raises (readRaw ⟨6, critical, asciiEncodeReplace (asciiDecodeReplace pat)⟩) := by
    have hp : Raises (readRegex (asciiEncodeReplace (asciiDecodeReplace pat))) := by
      have := pattern_content hz
      generalize asciiEncodeReplace (asciiDecodeReplace pat) = c at this ⊢
      unfold readRegex
      by_cases hc : c.length > 0
      · have e1 : pyAssert (decide (c.length > 0)) = .ok () := by simp [pyAssert, hc]
        have e2 : pyAssert (c.getLast? == some 0) = .error .assertionError := by simp [pyAssert, this]
        rw [e1, e2]; exact ⟨_, rfl⟩
      · have e1 : pyAssert (decide (c.length > 0)) = .error .assertionError := by simp [pyAssert, hc]
        rw [e1]; exact ⟨_, rfl⟩
    obtain ⟨x, hx⟩ := hp
    refine ⟨x, ?_⟩
    unfold readRaw readSub
    have : parsePlain 6 (asciiEncodeReplace (asciiDecodeReplace pat)) = .error x := hx
    simp only [this]; rfl
  obtain ⟨x, hx⟩ := mapM_mem_raises k2 hbad
  exact ⟨x, by rw [hx]; rfl⟩

/-- C122 fails for additional recipients: half of the fingerprint is lost each time such a subpacket is saved, and after the second time only zeros are left. -/
theorem C122_recipient_drifts_refuted (x a : UInt8) (first second : Bytes) (h1 : first.length = 10) :
    ∃ v v', parsePlain 10 (x :: a :: (first ++ second)) = .ok v ∧ v.content = .ok ((if x.toNat.testBit 7 then 0x80 else 0) :: a :: (List.replicate 10 0 ++ first)) ∧
      parsePlain 10 ((if x.toNat.testBit 7 then 0x80 else 0) :: a :: (List.replicate 10 0 ++ first)) = .ok v' ∧
      v'.content = .ok ((if x.toNat.testBit 7 then 0x80 else 0) :: a :: List.replicate 20 0) := by
  have rd : ∀ (y : UInt8) (f g : Bytes), f.length = 10 → parsePlain 10 (y :: a :: (f ++ g)) = .ok (.additionalRecipient (y.toNat.testBit 7) a.toNat (hexOf f)) := by
    intro y f g hf
    show readAdditionalRecipient _ = _
    have : bytearrayToHex (y :: a :: (f ++ g)) 2 (some 20) = .ok (hexOf f) := bytearrayToHex_of_drop (s := g) rfl (by omega)
    unfold readAdditionalRecipient
    rw [this]; rfl
  have wr : ∀ (b : Bool) (f : Bytes), f.length = 10 → (Plain.additionalRecipient b a.toNat (hexOf f)).content = .ok ((if b then 0x80 else 0) :: a :: (List.replicate 10 0 ++ f)) := by
    intro b f hf
    have : hexToBytes (hexOf f) (some 20) = .ok (List.replicate 10 0 ++ f) := by
      unfold hexToBytes
      rw [hexPairs_hexOf, except_bind_ok]
      simp only [lastN, except_pure, List.length_append, List.length_replicate, hf]
      rfl
    simp only [Plain.content, byteOf_toNat, this, except_bind_ok, except_pure]
    simp
  refine ⟨_, _, rd x first second h1, wr _ first h1, rd _ _ first (by simp), ?_⟩
  rw [wr _ _ (by simp)]
  have : ((if x.toNat.testBit 7 = true then (0x80 : UInt8) else 0)).toNat.testBit 7 = x.toNat.testBit 7 := by
    cases x.toNat.testBit 7 <;> rfl
  rw [this]
  rfl

example := C122_recipient_drifts_refuted 0x80 1 [1, 2, 3, 4, 5, 6, 7, 8, 9, 10] [11, 12, 13, 14, 15, 16, 17, 18, 19, 20] rfl

/-! ### Examples -/

/-- A key with loosely written integers, and a certification with a subpacket whose length takes five octets. -/
def exUntidy : Bytes := exPacket .new 6 13 exLooseOctets ++ exPacket .new 13 1 [65] ++ exPacket .new 2 47 exRaw

def exUntidyKey : PubKey := mkPubKey 4 1000 1 none (.rsa 3233 17)
def exUntidySig : Sig := .v4 4 0x13 1 8 [.plain false (.creationTime 1), .plain true (.keyFlags (KeyFlags.ofOctet 3)), .plain false (.prefSym [9, 7]),
  .plain false (.expiration 256)] [.plain false (.issuer "01020304050607AB".toList)] [5, 6] [some 257]
def exUntidyRaw : List RawPacket := [⟨.new, 6, exLooseOctets⟩, ⟨.new, 13, [65]⟩, ⟨.new, 2, exRaw⟩]
def exUntidyPackets : List KPacket := [⟨.new, .key false false exUntidyKey none⟩, ⟨.new, .uid ['A']⟩, ⟨.new, .sig exUntidySig⟩]
def exUntidyT : TKey := ⟨(⟨.new, .key false false exUntidyKey none⟩, []), [(⟨.new, .uid ['A']⟩, [⟨.new, .sig exUntidySig⟩])], [], []⟩

theorem exUntidy_sig : parseSig exRaw = .ok exUntidySig := by rw [parseSig_raw exRaw_ok]; rfl

theorem exUntidy_read (magic : Bytes → Str) : readKey magic exUntidy = .ok exUntidyT := by
  have h1 : parseBinaryPacketData exUntidy = .ok exUntidyRaw := by decide +kernel
  have a1 : readPacket ⟨.new, 6, exLooseOctets⟩ = .ok ⟨.new, .key false false exUntidyKey none⟩ := rfl
  have a2 : readPacket ⟨.new, 13, [65]⟩ = .ok ⟨.new, .uid ['A']⟩ := by
    have : userIdParse [65] = ['A'] := utf8DecodeReplace_encode ['A']
    simp only [readPacket, readBody, this]; rfl
  have a3 : readPacket ⟨.new, 2, exRaw⟩ = .ok ⟨.new, .sig exUntidySig⟩ := by
    simp only [readPacket, readBody, exUntidy_sig]; rfl
  have h2 : exUntidyRaw.mapM readPacket = .ok exUntidyPackets := by
    rw [exUntidyRaw, List.mapM_cons, List.mapM_cons, List.mapM_cons, a1, a2, a3]; rfl
  unfold readKey
  rw [h1, except_bind_ok, h2]
  rfl

theorem exUntidy_packets : exUntidyT.toPackets = .ok exUntidyPackets := rfl

theorem exUntidySig_ok : SigStorable Nat.log2 (· < 4096) exUntidySig :=
  .v4 (by intro s hs; simp only [List.mem_cons, List.not_mem_nil, or_false] at hs; rcases hs with rfl | rfl | rfl | rfl <;> exact .plain trivial)
    (by intro s hs; simp only [List.mem_cons, List.not_mem_nil, or_false] at hs; rcases hs with rfl; exact .plain trivial)
    (by intro e he; cases he; decide) (by intro e he; cases he; decide) rfl (by intro i hi; simp at hi; omega)

example := C122_signature_partial Nat.log2 (· < 4096) exGood exRaw _ exUntidySig exUntidy_sig exUntidySig_ok rfl

theorem exUntidy_storable : ∀ p ∈ exUntidyPackets, BodyStorable Nat.log2 (· < 4096) p.body := by
  intro p hp
  simp only [exUntidyPackets, List.mem_cons, List.not_mem_nil, or_false] at hp
  rcases hp with rfl | rfl | rfl
  · intro i hi
    have : i = 3233 ∨ i = 17 := by simpa [pubKeyInts, exUntidyKey, mkPubKey] using hi
    omega
  · trivial
  · exact exUntidySig_ok

theorem exUntidy_framed (hf : Option HeaderFormat) : ∀ p ∈ exUntidyPackets, ∀ r, p.raw Nat.log2 hf = .ok r → Expressible r := by
  intro p hp r hr
  simp only [exUntidyPackets, List.mem_cons, List.not_mem_nil, or_false] at hp
  have aux : ∀ t n (c : Bytes), t < 16 → c.length = n → 1 ≤ n → n < 2 ^ 24 → Expressible ⟨hf.getD .new, t, c⟩ := by
    intro t n c ht hc h1 h2
    cases hf with
    | none => exact .inl ⟨rfl, by show t < 64; omega, by show 1 ≤ c.length; omega, by show c.length ≤ _; omega⟩
    | some f =>
      cases f with
      | new => exact .inl ⟨rfl, by show t < 64; omega, by show 1 ≤ c.length; omega, by show c.length ≤ _; omega⟩
      | old => exact .inr ⟨rfl, ht, by show c.length < _; omega⟩
  rcases hp with rfl | rfl | rfl
  · cases hr; exact aux 6 _ _ (by decide) rfl (by decide) (by decide)
  · cases hr; exact aux 13 _ _ (by decide) rfl (by decide) (by decide)
  · cases hr; exact aux 2 _ _ (by decide) rfl (by decide) (by decide)

/-- Its octets change the first time, and then no more. -/
example (magic : Bytes → Str) (hmagic : ∀ d, '/' ∈ magic d) : ∃ out, exUntidyT.octets Nat.log2 none = .ok out ∧ out ≠ exUntidy ∧
    ∃ k', readKey magic out = .ok k' ∧ k'.octets Nat.log2 none = .ok out := by
  refine ⟨_, rfl, by decide +kernel, ?_⟩
  exact C122_key_partial magic hmagic Nat.log2 (fun _ _ _ => rfl) (· < 4096) exGood none exUntidy _ exUntidyT exUntidyPackets (exUntidy_read magic) exUntidy_packets rfl
    exUntidy_storable (exUntidy_framed none)

example (magic : Bytes → Str) (hmagic : ∀ d, '/' ∈ magic d) := C122_serialize_key_partial magic hmagic Nat.log2 (fun _ _ _ => rfl) (· < 4096) exGood none exUntidy _ exUntidyT
  exUntidyPackets (exUntidy_read magic) exUntidy_packets rfl exUntidy_storable (exUntidy_framed _)

/-- A signature with the regular expression `a`. -/
def exPatternHD : Bytes := (([3] ++ [UInt8.ofNat (6 + if false then 128 else 0)] ++ [97, 0]) ++ [])
def exPattern : Bytes := [4, 0x13, 1, 8] ++ beBytes 2 exPatternHD.length ++ exPatternHD ++ beBytes 2 0 ++ [] ++ [5, 6] ++ [[0, 9, 1, 1]].flatten

theorem exPattern_ok : SigRaw 0x13 1 8 [⟨6, false, [97] ++ [0]⟩] [] [5, 6] [257] exPattern :=
  ⟨exPatternHD, [], [[0, 9, 1, 1]], .cons (r := ⟨6, false, [97] ++ [0]⟩) (NewDefinite.one _ (by decide)) (by decide) .nil, .nil, by decide, by decide, rfl,
    .cons ⟨9, [1, 1], by decide, by decide, by decide, by decide⟩ .nil, rfl⟩

theorem exPattern_read : parseSig exPattern = .ok (.v4 4 0x13 1 8 [.plain false (.regex ['a'])] [] [5, 6] [some 257]) := by rw [parseSig_raw exPattern_ok]; rfl

example := C122_pattern_unreadable_refuted Nat.log2 0x13 1 8 _ [] [5, 6] [257] exPattern _ _ exPattern_ok
  (by intro i hi; obtain rfl := List.mem_singleton.mp hi; exact ⟨Nat.lt_of_lt_of_le (show 257 < 2 ^ 12 by decide) (Nat.pow_le_pow_right (by omega) (by omega)), fun _ => rfl⟩)
  false [97] (by simp) (by decide) exPattern_read rfl (by decide)

end Pgp.Props
