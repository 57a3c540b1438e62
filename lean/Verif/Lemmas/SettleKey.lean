import Verif.Lemmas.Settle
import Verif.Props.SecretFile
import Mathlib.Data.List.TakeWhile
/-
C122: what is written after reading a key is read again, and as packets of the same kinds.
-/
namespace Pgp
open Spec Props

theorem pubKey_version {d : Bytes} {o : Nat} {k : PubKey} (h : parsePubKey d = .ok (o, k)) : ∃ v, idx d 0 = .ok v ∧ k.version = v.toNat := by
  unfold parsePubKey at h
  obtain ⟨v, hv, h⟩ := except_bind_eq_ok.mp h
  obtain ⟨_, _, h⟩ := except_bind_eq_ok.mp h
  obtain ⟨⟨_, _⟩, _, h⟩ := except_bind_eq_ok.mp h
  obtain ⟨_, _, h⟩ := except_bind_eq_ok.mp h
  refine ⟨v, hv, ?_⟩
  dsimp only at h
  split at h
  · iterate 2 obtain ⟨⟨_, _⟩, _, h⟩ := except_bind_eq_ok.mp h
    cases h; rfl
  · split at h
    · iterate 3 obtain ⟨⟨_, _⟩, _, h⟩ := except_bind_eq_ok.mp h
      cases h; rfl
    · split at h
      · iterate 4 obtain ⟨⟨_, _⟩, _, h⟩ := except_bind_eq_ok.mp h
        cases h; rfl
      · cases h

/-- The public part of a key that was read and is written. -/
theorem pub_settles {fl : Nat → Nat} {good : Nat → Prop} (hg : GoodInts fl good) {d c : Bytes} {o : Nat} {k : PubKey} (h : parsePubKey d = .ok (o, k))
    (hi : ∀ i ∈ pubKeyInts (keyRound k), good i) (hc : (keyRound k).publicContent fl = .ok c) :
    KeyWire good c ∧ 4 ≤ k.version ∧ ∃ rest, c = UInt8.ofNat k.version :: rest := by
  obtain ⟨v, cr, a, days, m, hk, hvf, hfit, hcr, _⟩ := C22_parsed_shape d o k h
  have hround : keyRound k = mkPubKey v cr a none m := by rw [hk]; cases m <;> rfl
  have hver : k.version = v := by rw [hk]; cases m <;> rfl
  have ha : a < 256 := by cases m <;> simp [KeyMaterial.fits] at hfit <;> omega
  rw [hround] at hi hc
  have hm : ∀ i ∈ m.ints, good i := by
    intro i h
    refine hi i ?_
    cases m <;> simpa [pubKeyInts, mkPubKey, KeyMaterial.ints] using h
  rcases hvf with ⟨h23, _⟩ | ⟨h4, hv256, _⟩
  · exfalso
    unfold PubKey.publicContent at hc
    obtain ⟨_, _, hc⟩ := except_bind_eq_ok.mp hc
    obtain ⟨w, h1, _⟩ := except_bind_eq_ok.mp hc
    have : daysBytes v none = .ok w := by cases m <;> exact h1
    unfold daysBytes at this
    rw [if_pos h23] at this
    cases this
  · have hd : daysBytes (UInt8.ofNat v).toNat none = .ok [] := by
      unfold daysBytes; rw [toNat_ofNat_lt hv256, if_neg (by omega)]
    have hbt : beNat (beBytes 4 cr) = cr := by rw [beNat_beBytes, Nat.mod_eq_of_lt (by omega)]
    have hw := publicContent_wire (fl := fl) (v := UInt8.ofNat v) (a := UInt8.ofNat a) (t := beBytes 4 cr) (m := m) (beBytes_length _ _) hd
      (by rw [toNat_ofNat_lt ha]; exact hfit) (fun i h => (hg i (hm i h)).2)
    rw [toNat_ofNat_lt ha, toNat_ofNat_lt hv256, hbt, hc] at hw
    simp only [Except.ok.injEq, List.append_nil] at hw
    refine ⟨⟨UInt8.ofNat v, UInt8.ofNat a, beBytes 4 cr, m, by rw [toNat_ofNat_lt hv256]; exact h4, beBytes_length _ _, by
      rw [toNat_ofNat_lt ha]; exact hfit, hm, hw⟩, by omega, _, by rw [hver, hw]; rfl⟩

theorem slice_eight {data : Bytes} {off : Nat} (h : off + 8 ≤ data.length) : (slice data off (off + 8)).length = 8 := by
  simp only [slice, List.length_take, List.length_drop]; omega

/-- A specifier that was read and is written. -/
theorem s2k_settles {sym : Nat} {data : Bytes} {off off' : Nat} {s : S2K} (h : parseS2k sym data off = .ok (s, off')) (hl : off' ≤ data.length)
    (hs : ∀ a b c d e, s ≠ .gnupg a b c d e) : ∃ sp, s = specObj sym sp ∧ sp.wellFormed := by
  unfold parseS2k at h
  obtain ⟨t, _, h⟩ := except_bind_eq_ok.mp h
  dsimp only at h
  split at h
  · obtain ⟨x, _, h⟩ := except_bind_eq_ok.mp h
    cases h; exact ⟨.simple x, rfl, trivial⟩
  · split at h
    · obtain ⟨x, _, h⟩ := except_bind_eq_ok.mp h
      cases h; exact ⟨.salted x _, rfl, slice_eight (by omega)⟩
    · split at h
      · obtain ⟨x, _, h⟩ := except_bind_eq_ok.mp h
        obtain ⟨c, _, h⟩ := except_bind_eq_ok.mp h
        cases h; exact ⟨.iterated x _ c, by rw [s2kCountToInt_eq]; rfl, slice_eight (by omega)⟩
      · exfalso
        split at h
        · obtain ⟨x, _, h⟩ := except_bind_eq_ok.mp h
          split at h
          · cases h
          · obtain ⟨m, _, h⟩ := except_bind_eq_ok.mp h
            split at h
            · cases h; exact hs _ _ _ _ _ rfl
            · split at h
              · obtain ⟨n, _, h⟩ := except_bind_eq_ok.mp h
                obtain ⟨z, _, h⟩ := except_bind_eq_ok.mp h
                cases h; exact hs _ _ _ _ _ rfl
              · cases h
        · cases h

/-- A secret key packet that was read and is written. -/
theorem sec_settles {fl : Nat → Nat} (hl : LogOnCounts fl) {good : Nat → Prop} (hg : GoodInts fl good) {d c : Bytes} {k : SecKey} (h : parseSecKey d = .ok k)
    (hi : ∀ i ∈ pubKeyInts (keyRound k.pub), good i) {sub : Bool}
    (hc : SecKey.content fl (resealedParsed sub) ⟨keyRound k.pub, k.s2k, k.sym, k.iv, k.enc, k.checksum, k.hash⟩ = .ok c) :
    SecretWire good c ∧ ∃ rest, c = UInt8.ofNat k.pub.version :: rest := by
  unfold parseSecKey at h
  obtain ⟨⟨off, pub⟩, hp, h⟩ := except_bind_eq_ok.mp h
  dsimp only at h
  unfold parseSecretPart at h
  obtain ⟨usage, hu, h⟩ := except_bind_eq_ok.mp h
  dsimp only at h
  split at h
  · cases h
  split at h
  · rename_i hu'
    obtain ⟨sym, _, h⟩ := except_bind_eq_ok.mp h
    obtain ⟨⟨s, o⟩, hs, h⟩ := except_bind_eq_ok.mp h
    dsimp only at h
    unfold secretTail at h
    split at h
    · cases h
    · rename_i bl hb
      cases h
      dsimp only at hi hc ⊢
      unfold SecKey.content at hc
      obtain ⟨pc, hpc, hc⟩ := except_bind_eq_ok.mp hc
      obtain ⟨qc, hqc, hc⟩ := except_bind_eq_ok.mp hc
      dsimp only at hpc hqc hc
      split at hc
      · rename_i hne
        cases hc
        have hlen : o + bl < d.length := by
          by_contra hcon
          exact hne (List.drop_eq_nil_of_le (by omega))
        unfold SecKey.protection at hqc
        obtain ⟨a, ha, hqc⟩ := except_bind_eq_ok.mp hqc
        obtain ⟨sb, hsb, hqc⟩ := except_bind_eq_ok.mp hqc
        cases hqc
        dsimp only at ha hsb
        obtain ⟨sp, rfl, hw⟩ := s2k_settles hs (by omega) (by rintro x1 x2 x3 x4 x5 rfl; cases hsb)
        rw [spec_written fl hl] at hsb
        cases hsb
        rw [byteOf_toNat] at ha
        cases ha
        obtain ⟨w1, w2, rest, w3⟩ := pub_settles hg hp hi hpc
        have hivl : (slice d o (o + bl)).length = bl := by simp only [slice, List.length_take, List.length_drop]; omega
        refine ⟨⟨pc, usage, sym, sp, slice d o (o + bl), d.drop (o + bl), w1, hu', hw, ?_, hne, ?_⟩, _, by rw [w3]; rfl⟩
        · rw [hivl, ← blockLengths_eq]; exact hb
        · have e1 : (if decide (usage = 255) = true then (255 : UInt8) else 254) = usage := by rcases hu' with rfl | rfl <;> rfl
          have e2 : (if sym.toNat ≠ 0 then slice d o (o + bl) else []) = slice d o (o + bl) := by
            split
            · rfl
            · rename_i h0
              rw [Classical.not_not.mp h0] at hb
              cases hb
              exact (List.length_eq_zero_iff.mp hivl).symm
          dsimp only
          rw [e1, e2]
          simp
      · cases hc
  · split at h <;> cases h

/-- What the library makes of a packet it has read into a key and writes again. -/
def Written (magic : Bytes → Str) : KBody → KBody → Prop
  | .key a b k p, q => q = .key a b (keyRound k) p
  | .sig s, q => q = .sig s ∧ SigV4 s
  | .uid s, q => q = .uid s
  | .attr as, q => ∃ items as', as.mapM (attrItem magic) = .ok items ∧ items.mapM attrSubOf = some as' ∧ q = .attr as'
  | _, _ => False

def SameKind (a b : KBody) : Prop := a.type = b.type ∧ a.sigType = b.sigType ∧ a.version = b.version

theorem written_kind {magic : Bytes → Str} {a b : KBody} (h : Written magic a b) : SameKind a b := by
  cases a with
  | key s sub k p => cases h; exact ⟨by cases s <;> cases sub <;> rfl, rfl, rfl⟩
  | sig s => obtain ⟨rfl, _⟩ := h; exact ⟨rfl, rfl, rfl⟩
  | uid s => cases h; exact ⟨rfl, rfl, rfl⟩
  | attr as => obtain ⟨_, _, _, _, rfl⟩ := h; exact ⟨rfl, rfl, rfl⟩
  | trust t => exact h.elim
  | other t => exact h.elim

theorem idx_zero {c rest : Bytes} {x : UInt8} (h : c = x :: rest) : idx c 0 = .ok x := by subst h; rfl

theorem item_std {magic : Bytes → Str} (hmagic : ∀ d, '/' ∈ magic d) {m : Str} {d : Bytes} {x : AttrSub} (hm : m = "image/jpeg".toList ∨ m = magic (d.take 1024))
    (h : attrSubOf (m, d) = some x) : ∃ f d, x = .image 1 16 (some f) d ∧ (f = 1 ∨ f = 101 ∧ OtherImageMime (magic (d.take 1024))) := by
  unfold attrSubOf at h
  dsimp only at h
  by_cases hw : m.takeWhile (· ≠ '/') ≠ "image".toList
  · rw [if_pos hw] at h; cases h
  · rw [if_neg hw] at h
    cases h
    refine ⟨_, _, rfl, ?_⟩
    by_cases hs : "/jpeg".toList.isSuffixOf m = true
    · rw [if_pos hs]; exact .inl rfl
    · rw [if_neg hs]
      refine .inr ⟨rfl, ?_⟩
      rcases hm with rfl | rfl
      · exact absurd (by decide) hs
      · refine ⟨?_, hs⟩
        have hsplit := List.takeWhile_append_dropWhile (p := (· ≠ '/')) (l := magic (d.take 1024))
        have hne : (magic (d.take 1024)).dropWhile (· ≠ '/') ≠ [] := by
          intro e
          have := List.dropWhile_eq_nil_iff.mp e '/' (hmagic _)
          simp at this
        have hhead := List.head_dropWhile_not (fun c : Char => decide (c ≠ '/')) hne
        obtain ⟨x, t, hxt⟩ := List.exists_cons_of_ne_nil hne
        rw [Classical.not_not.mp hw, hxt] at hsplit
        simp only [hxt, List.head_cons] at hhead
        have : x = '/' := by simpa using hhead
        subst this
        exact ⟨t, by rw [← hsplit]; rfl⟩

theorem items_std {magic : Bytes → Str} (hmagic : ∀ d, '/' ∈ magic d) : ∀ {as : List AttrSub} {items : List (Str × Bytes)} {as' : List AttrSub},
    as.mapM (attrItem magic) = .ok items → items.mapM attrSubOf = some as' →
    ∀ a ∈ as', ∃ f d, a = .image 1 16 (some f) d ∧ (f = 1 ∨ f = 101 ∧ OtherImageMime (magic (d.take 1024))) := by
  intro as
  induction as with
  | nil =>
    intro items as' h1 h2
    cases h1
    cases h2
    simp
  | cons a as ih =>
    intro items as' h1 h2
    rw [List.mapM_cons] at h1
    obtain ⟨it, i1, h1⟩ := except_bind_eq_ok.mp h1
    obtain ⟨its, i2, h1⟩ := except_bind_eq_ok.mp h1
    cases h1
    rw [List.mapM_cons] at h2
    obtain ⟨b, j1, h2⟩ := Option.bind_eq_some_iff.mp h2
    obtain ⟨bs, j2, h2⟩ := Option.bind_eq_some_iff.mp h2
    cases h2
    intro x hx
    rcases List.mem_cons.mp hx with rfl | hx
    · cases a with
      | other t => cases i1
      | image hv hl f d =>
        simp only [attrItem, Except.ok.injEq] at i1
        refine item_std hmagic (m := it.1) (d := it.2) ?_ j1
        rw [← i1]
        dsimp only
        split
        · exact .inl rfl
        · exact .inr rfl
    · exact ih i2 j2 x hx

theorem image_wire {magic : Bytes → Str} {f : Nat} {d e : Bytes} (hf : f = 1 ∨ f = 101 ∧ OtherImageMime (magic (d.take 1024)))
    (h : (AttrSub.image 1 16 (some f) d).toBytes = .ok e) : ImageWire magic e := by
  have hb : f < 256 := by omega
  unfold AttrSub.toBytes at h
  have hc : (AttrSub.image 1 16 (some f) d).content = .ok ([16, 0, 1, UInt8.ofNat f] ++ List.replicate 12 0 ++ d) := by
    simp only [AttrSub.content, byteOf_lt (show 1 < 256 by omega), byteOf_lt hb, except_bind_ok, except_pure]
    rfl
  rw [hc, except_bind_ok] at h
  obtain ⟨⟨l, m⟩, h1, h⟩ := except_bind_eq_ok.mp h
  have hlen : ([16, 0, 1, UInt8.ofNat f] ++ List.replicate 12 0 ++ d).length + 1 = d.length + 17 := by simp
  rw [hlen] at h1
  dsimp only at h
  simp only [AttrSub.type, byteOf_lt (show 1 < 256 by omega), except_bind_ok, except_pure, Except.ok.injEq] at h
  refine ⟨l, d, UInt8.ofNat f, shortest_of_bytes h1, ?_, ?_⟩
  · rcases hf with rfl | ⟨rfl, hf⟩
    · exact .inl rfl
    · exact .inr ⟨rfl, hf⟩
  · rw [← h]; simp

theorem attrs_wire {magic : Bytes → Str} (hmagic : ∀ d, '/' ∈ magic d) {as as' : List AttrSub} {items : List (Str × Bytes)} {c : Bytes}
    (h1 : as.mapM (attrItem magic) = .ok items) (h2 : items.mapM attrSubOf = some as') (hc : attrsContent as' = .ok c) : Cat (ImageWire magic) c := by
  unfold attrsContent at hc
  obtain ⟨es, h3, hc⟩ := except_bind_eq_ok.mp hc
  cases hc
  refine ⟨es, fun e he => ?_, rfl⟩
  obtain ⟨a, ha, hae⟩ := forall₂_mem_right (mapM_ok_forall₂ h3) e he
  obtain ⟨f, d, rfl, hf⟩ := items_std hmagic h1 h2 a ha
  exact image_wire hf hae

/-- A packet of a key that was read and is written stands for a packet of the same kind. -/
theorem body_settles {magic : Bytes → Str} (hmagic : ∀ d, '/' ∈ magic d) {fl : Nat → Nat} (hl : LogOnCounts fl) {good : Nat → Prop} (hg : GoodInts fl good)
    {r : RawPacket} {p q : KBody} {c : Bytes} (hr : readBody r = .ok p) (hw : Written magic p q) (hs : BodyStorable fl good q) (hc : q.content fl = .ok c) :
    ∃ b, Stands magic fl good q.type c b ∧ SameKind q b := by
  have hb : ∀ s sub k pr, readBody r = .ok (.key s sub k pr) → (s = false ∧ pr = none ∧ ∃ o, parsePubKey r.content = .ok (o, k)) ∨
      (s = true ∧ ∃ sk, parseSecKey r.content = .ok sk ∧ k = sk.pub ∧ pr = some ⟨sk.s2k, sk.sym, sk.iv, sk.enc, sk.checksum, sk.hash⟩) := by
    intro s sub k pr h
    unfold readBody at h
    split at h
    · obtain ⟨⟨o, k'⟩, h1, h⟩ := except_bind_eq_ok.mp h
      cases h; exact .inl ⟨rfl, rfl, o, h1⟩
    · split at h
      · obtain ⟨sk, h1, h⟩ := except_bind_eq_ok.mp h
        cases h; exact .inr ⟨rfl, sk, h1, rfl, rfl⟩
      · split at h
        · obtain ⟨_, _, h⟩ := except_bind_eq_ok.mp h; cases h
        · split at h
          · cases h
          · split at h
            · obtain ⟨_, _, h⟩ := except_bind_eq_ok.mp h; cases h
            · split at h
              · obtain ⟨_, _, h⟩ := except_bind_eq_ok.mp h; cases h
              · cases h
  have vers : ∀ {sec : Bool} {sub : Bool} {v : Nat} {k : PubKey} {pr : Option SecPart} {t : Nat} {rest : Bytes}, v < 256 → c = UInt8.ofNat v :: rest →
      Stands magic fl good t c (.key sec sub k pr) → k.version = v := by
    intro sec sub v k pr t rest hv hcv hst
    obtain ⟨h1, _⟩ := hst
    have h1 := h1 .new
    have key : ∃ x, idx c 0 = .ok x ∧ k.version = x.toNat := by
      unfold readBody at h1
      split at h1
      · obtain ⟨⟨o, k'⟩, h2, h1⟩ := except_bind_eq_ok.mp h1
        cases h1; exact pubKey_version h2
      · split at h1
        · obtain ⟨sk, h2, h1⟩ := except_bind_eq_ok.mp h1
          cases h1
          obtain ⟨_, off, pub, _, hp, rfl, _⟩ := C50_parsed_shape c sk h2
          exact pubKey_version hp
        · split at h1
          · obtain ⟨_, _, h⟩ := except_bind_eq_ok.mp h1; cases h
          · split at h1
            · cases h1
            · split at h1
              · obtain ⟨_, _, h⟩ := except_bind_eq_ok.mp h1; cases h
              · split at h1
                · obtain ⟨_, _, h⟩ := except_bind_eq_ok.mp h1; cases h
                · cases h1
    obtain ⟨x, h3, h4⟩ := key
    rw [idx_zero hcv] at h3
    cases h3
    rw [h4, toNat_ofNat_lt hv]
  cases p with
  | key s sub k pr =>
    cases hw
    rcases hb _ _ _ _ hr with ⟨rfl, rfl, o, h1⟩ | ⟨rfl, sk, h1, rfl, rfl⟩
    · obtain ⟨w1, w2, rest, w3⟩ := pub_settles hg h1 hs hc
      obtain ⟨k', h2, _⟩ := keyWire_stands (magic := magic) hg w1 sub
      obtain ⟨x, _, hx⟩ := pubKey_version h1
      have hv := vers (by rw [hx]; exact x.toNat_lt) w3 h2
      refine ⟨.key false sub k' none, by cases sub <;> exact h2, by cases sub <;> rfl, rfl, ?_⟩
      exact hv.symm
    · obtain ⟨w1, rest, w3⟩ := sec_settles hl hg h1 hs hc
      obtain ⟨k', p', h2, _⟩ := secretWire_stands (magic := magic) hl hg w1 sub
      obtain ⟨_, off, pub, _, hp, hpub, _⟩ := C50_parsed_shape _ sk h1
      obtain ⟨x, _, hx⟩ := pubKey_version hp
      have hv := vers (by rw [hpub, hx]; exact x.toNat_lt) w3 h2
      refine ⟨.key true sub k' (some p'), by cases sub <;> exact h2, by cases sub <;> rfl, rfl, ?_⟩
      exact hv.symm
  | sig s =>
    obtain ⟨rfl, h4⟩ := hw
    have hp : parseSig r.content = .ok s := by
      unfold readBody at hr
      split at hr
      · obtain ⟨⟨_, _⟩, _, hr⟩ := except_bind_eq_ok.mp hr; cases hr
      · split at hr
        · obtain ⟨_, _, hr⟩ := except_bind_eq_ok.mp hr; cases hr
        · split at hr
          · obtain ⟨_, h1, hr⟩ := except_bind_eq_ok.mp hr; cases hr; exact h1
          · split at hr
            · cases hr
            · split at hr
              · obtain ⟨_, _, hr⟩ := except_bind_eq_ok.mp hr; cases hr
              · split at hr
                · obtain ⟨_, _, hr⟩ := except_bind_eq_ok.mp hr; cases hr
                · cases hr
    have hw := sig_settles hg hs _ hp c hc
    have ht : ∃ t, s.sigType = t ∧ t < 256 ∧ c[1]? = some (UInt8.ofNat t) := by
      cases s with
      | v3 => exact h4.elim
      | v4 version t p h hashed unhashed hash2 values =>
        obtain ⟨rfl, ht, hp', hh', _⟩ := sig_read hp
        refine ⟨t, rfl, ht, ?_⟩
        have hc' : Sig.content fl (.v4 4 t p h hashed unhashed hash2 values) = .ok c := hc
        rw [Sig.content, byteOf_lt (show 4 < 256 by decide), byteOf_lt ht, byteOf_lt hp', byteOf_lt hh'] at hc'
        simp only [except_bind_ok] at hc'
        obtain ⟨_, _, hc'⟩ := except_bind_eq_ok.mp hc'
        obtain ⟨_, _, hc'⟩ := except_bind_eq_ok.mp hc'
        obtain ⟨_, _, hc'⟩ := except_bind_eq_ok.mp hc'
        cases hc'
        simp
    obtain ⟨t, h1, h2, h3⟩ := ht
    obtain ⟨s', h5, h6⟩ := sigWire_stands (magic := magic) hg (types := [t]) ⟨hw, t, by simp, h3⟩ (by simpa using h2)
    refine ⟨.sig s', h5, rfl, ?_, rfl⟩
    show s.sigType = s'.sigType
    rw [h1, List.mem_singleton.mp h6]
  | uid s =>
    cases hw
    obtain ⟨s', h⟩ := uid_stands (magic := magic) (fl := fl) (good := good) (c := c) ⟨s, by cases hc; rfl⟩
    exact ⟨_, h, rfl, rfl, rfl⟩
  | attr as =>
    obtain ⟨items, as', h1, h2, rfl⟩ := hw
    obtain ⟨as'', h⟩ := attrs_stands (fl := fl) (good := good) (attrs_wire hmagic h1 h2 hc)
    exact ⟨_, h, rfl, rfl, rfl⟩
  | trust t => exact hw.elim
  | other t => exact hw.elim

/-! ### The sequence of packets -/

def WrittenP (magic : Bytes → Str) (p q : KPacket) : Prop := q.fmt = p.fmt ∧ Written magic p.body q.body

theorem takeSigs_written (magic : Bytes → Str) : ∀ ps : List KPacket, ∃ ss, ps = ss ++ (takeSigs ps).2 ∧
    ∀ qs, (takeSigs ps).1.mapM KElem.toPacket = .ok qs → List.Forall₂ (WrittenP magic) ss qs := by
  intro ps
  induction ps with
  | nil => exact ⟨[], rfl, fun qs h => by cases h; exact .nil⟩
  | cons p ps ih =>
    obtain ⟨f, b⟩ := p
    cases b with
    | sig s =>
      obtain ⟨ss, h1, h2⟩ := ih
      rw [takeSigs]
      refine ⟨⟨f, .sig s⟩ :: ss, by rw [List.cons_append, ← h1], fun qs h => ?_⟩
      have h : List.mapM KElem.toPacket (⟨f, .sig s⟩ :: (takeSigs ps).1) = .ok qs := h
      rw [List.mapM_cons] at h
      obtain ⟨q, h3, h⟩ := except_bind_eq_ok.mp h
      obtain ⟨qs', h4, h⟩ := except_bind_eq_ok.mp h
      cases h
      refine .cons ?_ (h2 qs' h4)
      cases s with
      | v3 => cases h3
      | v4 => cases h3; exact ⟨rfl, rfl, trivial⟩
    | _ => exact ⟨[], rfl, fun qs h => by cases h; exact .nil⟩

theorem group_written {magic : Bytes → Str} {e : KElem} {sigs : List KElem} {p : KPacket} {ss qs : List KPacket} (he : ∀ q, e.toPacket = .ok q → WrittenP magic p q)
    (hs : ∀ qs, sigs.mapM KElem.toPacket = .ok qs → List.Forall₂ (WrittenP magic) ss qs) (h : groupPackets (e, sigs) = .ok qs) :
    List.Forall₂ (WrittenP magic) (p :: ss) qs := by
  unfold groupPackets at h
  obtain ⟨q, h1, h⟩ := except_bind_eq_ok.mp h
  obtain ⟨qs', h2, h⟩ := except_bind_eq_ok.mp h
  cases h
  exact .cons (he q h1) (hs qs' h2)

theorem takeUids_written (magic : Bytes → Str) : ∀ (n : Nat) (ps : List KPacket), ∃ us, ps = us ++ (takeUids n ps).2 ∧
    ∀ qss, (takeUids n ps).1.mapM groupPackets = .ok qss → List.Forall₂ (WrittenP magic) us qss.flatten := by
  intro n
  have none : ∀ n ps, takeUids n ps = ([], ps) → ∃ us, ps = us ++ (takeUids n ps).2 ∧
      ∀ qss, (takeUids n ps).1.mapM groupPackets = .ok qss → List.Forall₂ (WrittenP magic) us qss.flatten := by
    intro n ps h
    rw [h]
    exact ⟨[], rfl, fun qss h => by cases h; exact .nil⟩
  induction n with
  | zero => intro ps; exact none _ _ (by cases ps <;> rfl)
  | succ n ih =>
    intro ps
    cases ps with
    | nil => exact none _ _ rfl
    | cons p ps =>
      obtain ⟨f, b⟩ := p
      cases b with
      | uid s =>
        obtain ⟨ss, h1, h2⟩ := takeSigs_written magic ps
        obtain ⟨us, h3, h4⟩ := ih (takeSigs ps).2
        rw [takeUids]
        refine ⟨⟨f, .uid s⟩ :: (ss ++ us), ?_, fun qss h => ?_⟩
        · rw [List.cons_append, List.append_assoc, ← h3, ← h1]
        · have h : List.mapM groupPackets ((⟨f, .uid s⟩, (takeSigs ps).1) :: (takeUids n (takeSigs ps).2).1) = .ok qss := h
          rw [List.mapM_cons] at h
          obtain ⟨q, h5, h⟩ := except_bind_eq_ok.mp h
          obtain ⟨qs', h6, h⟩ := except_bind_eq_ok.mp h
          cases h
          rw [List.flatten_cons, ← List.cons_append]
          exact forall₂_app (group_written (fun q hq => by cases hq; exact ⟨rfl, rfl⟩) h2 h5) (h4 qs' h6)
      | _ => exact none _ _ rfl

theorem takeSubs_written (magic : Bytes → Str) : ∀ (n : Nat) (ps : List KPacket), ∃ us, ps = us ++ (takeSubs n ps).2 ∧
    ∀ qss, (takeSubs n ps).1.mapM groupPackets = .ok qss → List.Forall₂ (WrittenP magic) us qss.flatten := by
  intro n
  have none : ∀ n ps, takeSubs n ps = ([], ps) → ∃ us, ps = us ++ (takeSubs n ps).2 ∧
      ∀ qss, (takeSubs n ps).1.mapM groupPackets = .ok qss → List.Forall₂ (WrittenP magic) us qss.flatten := by
    intro n ps h
    rw [h]
    exact ⟨[], rfl, fun qss h => by cases h; exact .nil⟩
  induction n with
  | zero => intro ps; exact none _ _ (by cases ps <;> rfl)
  | succ n ih =>
    intro ps
    cases ps with
    | nil => exact none _ _ rfl
    | cons p ps =>
      obtain ⟨f, b⟩ := p
      cases b with
      | key a b c d =>
        cases b with
        | false => exact none _ _ rfl
        | true =>
          obtain ⟨ss, h1, h2⟩ := takeSigs_written magic ps
          obtain ⟨us, h3, h4⟩ := ih (takeSigs ps).2
          rw [takeSubs]
          refine ⟨⟨f, .key a true c d⟩ :: (ss ++ us), ?_, fun qss h => ?_⟩
          · rw [List.cons_append, List.append_assoc, ← h3, ← h1]
          · have h : List.mapM groupPackets ((⟨f, .key a true (keyRound c) d⟩, (takeSigs ps).1) :: (takeSubs n (takeSigs ps).2).1) = .ok qss := h
            rw [List.mapM_cons] at h
            obtain ⟨q, h5, h⟩ := except_bind_eq_ok.mp h
            obtain ⟨qs', h6, h⟩ := except_bind_eq_ok.mp h
            cases h
            rw [List.flatten_cons, ← List.cons_append]
            exact forall₂_app (group_written (fun q hq => by cases hq; exact ⟨rfl, rfl⟩) h2 h5) (h4 qs' h6)
      | _ => exact none _ _ rfl

theorem takeAttrs_written (magic : Bytes → Str) : ∀ (n : Nat) (ps : List KPacket) (gs : List KGroup) (rest : List KPacket), takeAttrs magic n ps = .ok (gs, rest) →
    ∃ us, ps = us ++ rest ∧ ∀ qss, gs.mapM groupPackets = .ok qss → List.Forall₂ (WrittenP magic) us qss.flatten := by
  intro n
  have none : ∀ n ps gs rest, takeAttrs magic n ps = .ok (gs, rest) → takeAttrs magic n ps = .ok ([], ps) →
      ∃ us, ps = us ++ rest ∧ ∀ qss, gs.mapM groupPackets = .ok qss → List.Forall₂ (WrittenP magic) us qss.flatten := by
    intro n ps gs rest h h'
    rw [h'] at h
    cases h
    exact ⟨[], rfl, fun qss h => by cases h; exact .nil⟩
  induction n with
  | zero => intro ps gs rest h; exact none _ _ _ _ h (by cases ps <;> rfl)
  | succ n ih =>
    intro ps gs rest h
    cases ps with
    | nil => exact none _ _ _ _ h rfl
    | cons p ps =>
      obtain ⟨f, b⟩ := p
      cases b with
      | attr as =>
        rw [takeAttrs] at h
        obtain ⟨items, hi, h⟩ := except_bind_eq_ok.mp h
        dsimp only at h
        obtain ⟨⟨gs', r'⟩, hg, h⟩ := except_bind_eq_ok.mp h
        cases h
        obtain ⟨ss, h1, h2⟩ := takeSigs_written magic ps
        obtain ⟨us, h3, h4⟩ := ih _ _ _ hg
        refine ⟨⟨f, .attr as⟩ :: (ss ++ us), ?_, fun qss h => ?_⟩
        · rw [List.cons_append, List.append_assoc, ← h3, ← h1]
        · rw [List.mapM_cons] at h
          obtain ⟨q, h5, h⟩ := except_bind_eq_ok.mp h
          obtain ⟨qs', h6, h⟩ := except_bind_eq_ok.mp h
          cases h
          rw [List.flatten_cons, ← List.cons_append]
          refine forall₂_app (group_written (fun q hq => ?_) h2 h5) (h4 qs' h6)
          unfold KElem.toPacket at hq
          dsimp only at hq
          split at hq
          · rename_i as' ha
            cases hq
            exact ⟨rfl, items, as', hi, ha, rfl⟩
          · cases hq
      | _ => exact none _ _ _ _ h rfl

theorem takeAttrs_rest (magic : Bytes → Str) {rest : List KPacket} (hr : HeadNot IsSigK rest) (hr' : HeadNot IsAttr rest) : ∀ (gs : List PGroup),
    (∀ g ∈ gs, g.Ok IsAttr) → ∀ fuel, gs.length ≤ fuel → ∀ ks r, takeAttrs magic fuel ((gs.map PGroup.packets).flatten ++ rest) = .ok (ks, r) → r = rest := by
  intro gs
  induction gs with
  | nil =>
    intro _ fuel _ ks r h
    have : takeAttrs magic fuel rest = .ok ([], rest) := by
      cases fuel with
      | zero => cases rest <;> rfl
      | succ fuel =>
        cases rest with
        | nil => rfl
        | cons p t =>
          obtain ⟨f, b⟩ := p
          have := hr' _ _ rfl
          cases b <;> first | rfl | exact absurd trivial this
    have h : takeAttrs magic fuel rest = .ok (ks, r) := h
    rw [this] at h
    cases h
    rfl
  | cons g gs ih =>
    intro hg fuel hf ks r h
    obtain ⟨hl, hs⟩ := hg g List.mem_cons_self
    have hg' : ∀ g ∈ gs, g.Ok IsAttr := fun g h => hg g (List.mem_cons_of_mem _ h)
    cases fuel with
    | zero => simp at hf
    | succ fuel =>
      obtain ⟨⟨f, b⟩, sigs⟩ := g
      cases b <;> first | exact hl.elim | skip
      rename_i as
      simp only [List.map_cons, List.flatten_cons, PGroup.packets, List.cons_append, List.append_assoc] at h
      rw [takeAttrs, takeSigs_run hs (headNot_packets (P := IsAttr) (by intro b h h'; cases b <;> first | exact h.elim | exact h'.elim) hg' hr)] at h
      obtain ⟨items, _, h⟩ := except_bind_eq_ok.mp h
      dsimp only at h
      obtain ⟨⟨gs', r'⟩, hg2, h⟩ := except_bind_eq_ok.mp h
      cases h
      exact ih hg' fuel (by simpa using hf) _ _ hg2

/-- A key made of packets without trust packets is written with a packet for each. -/
theorem written_all {magic : Bytes → Str} {secret : Bool} {ps0 ps : List KPacket} {k : TKey} (h : TKey.fromPackets magic secret ps0 = .ok k)
    (hnt : ∀ p ∈ ps0, ¬ IsTrust p.body) (hps : k.toPackets = .ok ps) : List.Forall₂ (WrittenP magic) ps0 ps := by
  have hv : KeySequence secret (ps0.map KPacket.body) := by
    unfold TKey.fromPackets at h
    obtain ⟨_, h1, _⟩ := except_bind_eq_ok.mp h
    exact (validateKey_iff _ _).mp h1
  obtain ⟨f, key, priv, direct, uids, attrs, subs, heq, hd, hu, ha, hs⟩ := lift_key hv hnt
  have hS : HeadNot IsSigK ((subs.map PGroup.packets).flatten ++ []) :=
    headNot_packets (P := IsSub) (by intro b h h'; cases b <;> first | exact h.elim | exact h'.elim) hs headNot_nil
  have hSA : HeadNot IsAttr ((subs.map PGroup.packets).flatten ++ []) :=
    headNot_packets (P := IsSub) (by intro b h h'; cases b <;> first | exact h.elim | exact h'.elim) hs headNot_nil
  have hSU : HeadNot IsUid ((subs.map PGroup.packets).flatten ++ []) :=
    headNot_packets (P := IsSub) (by intro b h h'; cases b <;> first | exact h.elim | exact h'.elim) hs headNot_nil
  have hA : HeadNot IsSigK ((attrs.map PGroup.packets).flatten ++ ((subs.map PGroup.packets).flatten ++ [])) :=
    headNot_packets (P := IsAttr) (by intro b h h'; cases b <;> first | exact h.elim | exact h'.elim) ha hS
  have hAU : HeadNot IsUid ((attrs.map PGroup.packets).flatten ++ ((subs.map PGroup.packets).flatten ++ [])) :=
    headNot_packets (P := IsAttr) (by intro b h h'; cases b <;> first | exact h.elim | exact h'.elim) ha hSU
  have hU : HeadNot IsSigK ((uids.map PGroup.packets).flatten ++ ((attrs.map PGroup.packets).flatten ++ ((subs.map PGroup.packets).flatten ++ []))) :=
    headNot_packets (P := IsUid) (by intro b h h'; cases b <;> first | exact h.elim | exact h'.elim) hu hA
  have ku := takeUids_run hA hAU uids hu
    ((uids.map PGroup.packets).flatten ++ ((attrs.map PGroup.packets).flatten ++ ((subs.map PGroup.packets).flatten ++ []))).length
    (by rw [List.length_append]; exact le_trans (length_flatten_packets uids) (by omega))
  have ks := takeSubs_run headNot_nil headNot_nil subs hs ((subs.map PGroup.packets).flatten ++ []).length
    (by rw [List.length_append]; exact le_trans (length_flatten_packets subs) (by omega))
  have kd := takeSigs_run hd hU
  have ka := takeAttrs_rest magic hS hSA attrs ha ((attrs.map PGroup.packets).flatten ++ ((subs.map PGroup.packets).flatten ++ [])).length
    (by rw [List.length_append]; exact le_trans (length_flatten_packets attrs) (by omega))
  unfold TKey.fromPackets at h
  obtain ⟨_, _, h⟩ := except_bind_eq_ok.mp h
  rw [heq] at h ⊢
  dsimp only at h
  simp only [kd, ku] at h
  obtain ⟨⟨kas, r3⟩, h1, h⟩ := except_bind_eq_ok.mp h
  have hr3 := ka _ _ h1
  subst hr3
  simp only [ks] at h
  cases h
  obtain ⟨w1, e1, w1'⟩ := takeSigs_written magic (direct ++ ((uids.map PGroup.packets).flatten ++ ((attrs.map PGroup.packets).flatten ++ ((subs.map PGroup.packets).flatten ++ []))))
  rw [kd] at e1 w1'
  have e1 := List.append_cancel_right e1
  obtain ⟨w2, e2, w2'⟩ := takeUids_written magic _ ((uids.map PGroup.packets).flatten ++ ((attrs.map PGroup.packets).flatten ++ ((subs.map PGroup.packets).flatten ++ [])))
  rw [ku] at e2 w2'
  have e2 := List.append_cancel_right e2
  obtain ⟨w3, e3, w3'⟩ := takeAttrs_written magic _ _ _ _ h1
  have e3 := List.append_cancel_right e3
  obtain ⟨w4, e4, w4'⟩ := takeSubs_written magic _ ((subs.map PGroup.packets).flatten ++ [])
  rw [ks] at e4 w4'
  have e4 := List.append_cancel_right e4
  unfold TKey.toPackets at hps
  obtain ⟨a, ha1, hps⟩ := except_bind_eq_ok.mp hps
  obtain ⟨b, hb1, hps⟩ := except_bind_eq_ok.mp hps
  obtain ⟨c, hc1, hps⟩ := except_bind_eq_ok.mp hps
  obtain ⟨d, hd1, hps⟩ := except_bind_eq_ok.mp hps
  cases hps
  rw [e1, e2, e3, e4, List.append_nil, ← List.cons_append, ← List.append_assoc, ← List.append_assoc]
  exact forall₂_app (forall₂_app (forall₂_app (group_written (fun q hq => by cases hq; exact ⟨rfl, rfl⟩) w1' ha1) (w2' b hb1)) (w3' c hc1)) (w4' d hd1)

/-- A key made of packets is written with a packet for each packet before the first trust packet. -/
theorem written_prefix {magic : Bytes → Str} {secret : Bool} {ps0 ps : List KPacket} {k : TKey} (h : TKey.fromPackets magic secret ps0 = .ok k)
    (hps : k.toPackets = .ok ps) : ∃ pre rest, ps0 = pre ++ rest ∧ validateKey secret (pre.map KPacket.body) = .ok () ∧ List.Forall₂ (WrittenP magic) pre ps := by
  have hval : ∀ {l : List KPacket}, TKey.fromPackets magic secret l = .ok k → validateKey secret (l.map KPacket.body) = .ok () := by
    intro l h
    unfold TKey.fromPackets at h
    obtain ⟨_, h1, _⟩ := except_bind_eq_ok.mp h
    exact h1
  by_cases hnt : ∀ p ∈ ps0, ¬ IsTrust p.body
  · exact ⟨ps0, [], by simp, hval h, written_all h hnt hps⟩
  · have : ∃ pre f t rest, ps0 = pre ++ ⟨f, .trust t⟩ :: rest ∧ ∀ p ∈ pre, ¬ IsTrust p.body := by
      clear h hps hval
      induction ps0 with
      | nil => exact absurd (by simp) hnt
      | cons p l ih =>
        by_cases hp : IsTrust p.body
        · obtain ⟨f, b⟩ := p
          cases b <;> first | exact hp.elim | skip
          exact ⟨[], f, _, l, rfl, by simp⟩
        · obtain ⟨pre, f, t, rest, rfl, h2⟩ := ih (fun hc => hnt (by simpa [hp] using hc))
          exact ⟨p :: pre, f, t, rest, rfl, by simpa [hp] using h2⟩
    obtain ⟨pre, f, t, rest, rfl, h2⟩ := this
    rw [C36_trust_packet_truncates_refuted magic secret pre rest f t (hval h)] at h
    exact ⟨pre, _, rfl, hval h, written_all h h2 hps⟩

/-! ### The order check looks at the kinds only -/

theorem kind_types {a b : List KBody} (h : List.Forall₂ SameKind a b) : a.map KBody.type = b.map KBody.type := by
  induction h with
  | nil => rfl
  | cons h _ ih => simp only [List.map_cons, ih, h.1]

theorem onlyBefore_types (l : List KBody) (types : List Nat) :
    onlyBefore l types = if (l.map KBody.type).all (fun t => t ∈ types) then .ok () else .error (.pgp "InvalidKeyPacketOrder") := by
  unfold onlyBefore
  rw [List.all_map]; rfl

theorem kind_dropWhile {a b : List KBody} (h : List.Forall₂ SameKind a b) :
    List.Forall₂ SameKind (a.dropWhile (fun p => p.type = 12)) (b.dropWhile (fun p => p.type = 12)) := by
  induction h with
  | nil => exact .nil
  | cons h hs ih =>
    rename_i x y l1 l2
    simp only [List.dropWhile_cons, h.1]
    split
    · exact ih
    · exact .cons h hs

theorem kind_check {secret : Bool} {version : Nat} {b b' a a' : List KBody} {x y : KBody} (hb : List.Forall₂ SameKind b b') (hx : SameKind x y)
    (ha : List.Forall₂ SameKind a a') : checkKeyPacket secret version b x a = checkKeyPacket secret version b' y a' := by
  have hd := kind_dropWhile (List.forall₂_reverse_iff.mpr hb)
  have hn : prevNonSig b = prevNonSig b' := by
    unfold prevNonSig; rw [kind_types hd]
  have ho : ∀ types, onlyBefore b types = onlyBefore b' types := fun types => by rw [onlyBefore_types, onlyBefore_types, kind_types hb]
  have hnil : b ≠ [] ↔ b' ≠ [] := by cases hb <;> simp
  have hsub : checkSubkey version a = checkSubkey version a' := by
    unfold checkSubkey
    cases ha with
    | nil => rfl
    | cons h _ => dsimp only; rw [h.1, h.2.1]
  unfold checkKeyPacket prevPacket
  dsimp only
  rw [hx.1, hx.2.1, hn, hsub]
  simp only [hnil, ho]
  generalize b.reverse.dropWhile (fun p => p.type = 12) = u at hd ⊢
  generalize b'.reverse.dropWhile (fun p => p.type = 12) = w at hd ⊢
  cases hd with
  | nil => rfl
  | cons h _ =>
    simp only [List.head?_cons]
    cases prevNonSig b' with
    | none => simp only [h.1]
    | some n =>
      unfold checkKeySig checkBinding
      simp only [ho, h.1, h.2.1]

theorem kind_loop {secret : Bool} {version : Nat} {a a' : List KBody} (ha : List.Forall₂ SameKind a a') : ∀ {b b' : List KBody}, List.Forall₂ SameKind b b' →
    validateLoop secret version b a = validateLoop secret version b' a' := by
  induction ha with
  | nil => intros; rfl
  | cons h hs ih =>
    intro b b' hb
    rw [validateLoop, validateLoop, kind_check hb h hs, ih (forall₂_app hb (.cons h .nil))]

theorem kind_validate {secret : Bool} {a b : List KBody} (h : List.Forall₂ SameKind a b) : validateKey secret a = validateKey secret b := by
  cases h with
  | nil => rfl
  | cons h hs =>
    unfold validateKey
    dsimp only
    rw [h.1, h.2.2, kind_loop (.cons h hs) .nil]

end Pgp
