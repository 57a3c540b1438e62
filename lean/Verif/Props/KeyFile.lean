import Verif.Lemmas.KeyFile
import Verif.Props.Keys
import Verif.Props.SigWire
import Verif.Props.Lengths
import Verif.Props.Framing
import Verif.Props.PublicKey
/-
Property theorems C83: the octets of a received key survive reading and writing.
-/
namespace Pgp.Props
open Spec

/-! ### What survives -/

theorem rep_read_full {magic : Bytes → Str} {F : HeaderFormat → Prop} {fl : Nat → Nat} {good : Nat → Prop} {b : Bytes} {ps : List KPacket}
    {secret : Bool} (h : Rep magic F fl good b ps) (hs : KeySequence secret (ps.map KPacket.body)) :
    ∃ k, readKey magic b = .ok k ∧ k.toPackets = .ok ps ∧ (∀ hf, (∀ f, F f → hf.getD f = f) → k.octets fl hf = .ok b) ∧
      TKey.fromPackets magic secret ps = .ok k := by
  obtain ⟨rs, es, h1, h2, rfl⟩ := h
  have hex : ∀ r ∈ rs, Expressible r := by
    clear h2 hs
    induction h1 with
    | nil => simp
    | cons hx _ ih =>
      intro r hr
      rcases List.mem_cons.mp hr with rfl | hr
      exacts [hx.2.2.2.2.1, ih r hr]
  have hmod : ∀ p ∈ ps, Modern magic p.body := by
    clear h2 hs hex
    induction h1 with
    | nil => simp
    | cons hx _ ih =>
      intro r hr
      rcases List.mem_cons.mp hr with rfl | hr
      exacts [hx.2.2.2.1, ih r hr]
  have hread : rs.mapM readPacket = .ok ps := by
    clear h2 hs hex hmod
    induction h1 with
    | nil => rfl
    | cons hx _ ih => rw [List.mapM_cons, hx.1, ih]; rfl
  have hraw : ∀ hf, (∀ f, F f → hf.getD f = f) → ps.mapM (KPacket.raw fl hf) = .ok rs := by
    intro hf hF
    clear h2 hs hex hmod hread
    induction h1 with
    | nil => rfl
    | cons hx _ ih =>
      rename_i r p _ _ _
      have : p.raw fl hf = .ok r := by
        have := hx.2.1
        unfold KPacket.raw at this ⊢
        rw [hF _ hx.2.2.1]
        exact this
      rw [List.mapM_cons, this, ih]; rfl
  obtain ⟨es', h3, h4⟩ := C10_parse_concat_partial rs hex
  rw [h2] at h3
  cases h3
  obtain ⟨k, h5, h6⟩ := key_roundtrip magic secret ps hs hmod
  obtain ⟨k0, priv, d, u, a, s, he, _⟩ := hs
  have hcls : classOf rs = .ok (if secret then .secretKey else .publicKey) := by
    cases h1 with
    | nil => cases he
    | cons hx _ =>
      rename_i r p rs' ps'
      simp only [List.map_cons, List.cons.injEq] at he
      have hr := hx.2.1
      unfold KPacket.raw at hr
      obtain ⟨c, _, hr⟩ := except_bind_eq_ok.mp hr
      cases hr
      unfold classOf
      simp only [he.1]
      cases secret <;> rfl
  refine ⟨k, ?_, h6, fun hf hF => ?_, h5⟩
  · unfold readKey
    simp only [h4, except_bind_ok, hread, hcls]
    cases secret <;> exact h5
  · unfold TKey.octets joinPackets
    simp only [h6, except_bind_ok, hraw hf hF, h2, except_pure]

theorem rep_read {magic : Bytes → Str} {F : HeaderFormat → Prop} {fl : Nat → Nat} {good : Nat → Prop} {b : Bytes} {ps : List KPacket}
    {secret : Bool} (h : Rep magic F fl good b ps) (hs : KeySequence secret (ps.map KPacket.body)) :
    ∃ k, readKey magic b = .ok k ∧ k.toPackets = .ok ps ∧ ∀ hf, (∀ f, F f → hf.getD f = f) → k.octets fl hf = .ok b := by
  obtain ⟨k, h1, h2, h3, _⟩ := rep_read_full h hs
  exact ⟨k, h1, h2, h3⟩

/-- C83 (part that holds): a public key - its packets written with shortest definite lengths, integers with exact bit counts, version 4
keys and signatures with content that is kept, user ids in UTF-8, images with the standard header; any number of signatures, user ids,
attributes and subkeys; old and new headers mixed - is read, and the key read, turned into packets, gives exactly the octets that came
in. -/
theorem C83_import_export_partial (magic : Bytes → Str) (fl : Nat → Nat) (good : Nat → Prop)
    (hg : ∀ i, good i → LogRoom fl i ∧ (0 < i → fl i = Nat.log2 i)) (F : HeaderFormat → Prop) (data : Bytes)
    (h : PublicKeyFile magic F good data) : ∃ k, readKey magic data = .ok k ∧ k.octets fl none = .ok data := by
  obtain ⟨ps, h1, h2⟩ := file_rep hg h
  obtain ⟨k, h3, _, h4⟩ := rep_read h1 h2
  exact ⟨k, h3, h4 none fun f _ => rfl⟩

/-- C83 (part that holds): the same for `serialize_key` with a header format, if that is the format of all packets in the data. -/
theorem C83_serialize_key_partial (magic : Bytes → Str) (fl : Nat → Nat) (good : Nat → Prop)
    (hg : ∀ i, good i → LogRoom fl i ∧ (0 < i → fl i = Nat.log2 i)) (f : HeaderFormat) (data : Bytes)
    (h : PublicKeyFile magic (· = f) good data) :
    ∃ k, readKey magic data = .ok k ∧ serializeKey fl (some f) k = .ok data ∧ (f = .old → serializeKey fl none k = .ok data) := by
  obtain ⟨ps, h1, h2⟩ := file_rep hg h
  obtain ⟨k, h3, _, h4⟩ := rep_read h1 h2
  have := h4 (some f) fun f' hf => by rw [hf]; rfl
  exact ⟨k, h3, this, by rintro rfl; exact this⟩

/-! ### When the octets of a packet survive -/

theorem old_shortest_exists {n : Nat} (hn : n < 2 ^ 24) :
    ∃ lt l, OldDefinite lt l n ∧ ∀ lt' l', OldDefinite lt' l' n → l.length ≤ l'.length := by
  obtain ⟨t, ns, e, h1, h2, _, h4, h3⟩ := old_length_key hn
  refine ⟨t, e, h3, fun lt' l' h' => ?_⟩
  have h5 : t = 0 ∧ n < 256 ∨ t = 1 ∧ ¬ n < 256 ∧ n < 65536 ∨ t = 2 ∧ ¬ n < 65536 := by
    unfold oldPacketLengthToBytes at h1
    split at h1
    · cases h1; omega
    · split at h1
      · cases h1; omega
      · split at h1 <;> cases h1 <;> omega
  rcases oldDefinite_length h' with h | h | h <;> rcases oldDefinite_length h3 with h' | h' | h' <;> omega

/-- C83: a packet is written as these octets exactly if they are its content behind a header of its format with the shortest length;
so received octets with any other length (longer than needed, or partial) do not survive. -/
theorem C83_packet_octets_iff (p : RawPacket) (h : Expressible p) (w : Bytes) :
    Packet.toBytes 1 p = .ok w ↔ ∃ hd, HeaderOf p.fmt p.type p.content.length hd ∧ w = hd ++ p.content := by
  have hex : ∃ hd, HeaderOf p.fmt p.type p.content.length hd := by
    rcases h with ⟨hf, ht, h1, h2⟩ | ⟨hf, ht, h1⟩
    · rw [hf]
      obtain ⟨e, _, h3, h4⟩ := C06_new_length_shortest p.content.length (by simpa using h2) false
      exact ⟨_, ht, h1, e, ⟨h3, h4⟩, rfl⟩
    · rw [hf]
      obtain ⟨lt, l, h3, h4⟩ := old_shortest_exists h1
      exact ⟨_, ht, h1, lt, l, h3, h4, rfl⟩
  constructor
  · intro hw
    obtain ⟨hd, hh⟩ := hex
    refine ⟨hd, hh, ?_⟩
    have := (header_written hh).1
    rw [hw] at this
    cases this
    rfl
  · rintro ⟨hd, hh, rfl⟩
    exact (header_written hh).1

example (w : Bytes) := C83_packet_octets_iff ⟨.old, 13, [65, 66]⟩ (.inr ⟨rfl, by decide, by decide⟩) w

/-- C83: the octets of a public key (version 4 or later) survive exactly if its integers have their exact bit counts, no leading zeros. -/
theorem C83_key_octets_iff (fl : Nat → Nat) (data : Bytes) (off version created alg : Nat) (m : KeyMaterial)
    (h : parsePubKey data = .ok (off, mkPubKey version created alg none m)) (hv : 4 ≤ version)
    (hm : ∀ i ∈ m.ints, i < 2 ^ 65535 ∧ (0 < i → fl i = Nat.log2 i)) :
    (mkPubKey version created alg none m).publicContent fl = .ok (data.take off) ↔
      KeyWire (fun i => i < 2 ^ 65535 ∧ (0 < i → fl i = Nat.log2 i)) (data.take off) := by
  constructor
  · intro hw
    obtain ⟨v, c, a, days, m', hk, hvf, hfit, hc, _⟩ := C22_parsed_shape data off _ h
    have hall : v = version ∧ c = created ∧ a = alg ∧ days = none ∧ (m' = m ∨ m'.ints = m.ints) := by
      cases m <;> cases m' <;> simp [mkPubKey] at hk <;> simp [hk]
    obtain ⟨rfl, rfl, rfl, rfl, _⟩ := hall
    have hfit' : m.fits a := by
      cases m <;> cases m' <;> simp [mkPubKey] at hk <;> exact hfit
    have ha : a < 256 := by
      cases m <;> simp [KeyMaterial.fits] at hfit' <;> omega
    rcases hvf with ⟨h23, _⟩ | ⟨_, hv256, _⟩
    · omega
    have hd : daysBytes (UInt8.ofNat v).toNat none = .ok [] := by
      unfold daysBytes; rw [toNat_ofNat_lt hv256, if_neg (by omega)]
    have hbt : beNat (beBytes 4 c) = c := by
      rw [beNat_beBytes, Nat.mod_eq_of_lt (by omega)]
    have hwire := publicContent_wire (fl := fl) (v := UInt8.ofNat v) (a := UInt8.ofNat a) (t := beBytes 4 c) (m := m) (beBytes_length _ _) hd
      (by rw [toNat_ofNat_lt ha]; exact hfit') (fun i hi => (hm i hi).2)
    rw [toNat_ofNat_lt ha, toNat_ofNat_lt hv256, hbt, hw] at hwire
    simp only [Except.ok.injEq, List.append_nil] at hwire
    exact ⟨UInt8.ofNat v, UInt8.ofNat a, beBytes 4 c, m, by rw [toNat_ofNat_lt hv256]; exact hv, beBytes_length _ _, by
      rw [toNat_ofNat_lt ha]; exact hfit', hm, hwire⟩
  · rintro ⟨v, a, t, m', hv', ht, ha, hg, hc⟩
    have hl := looseKey_parse (c := data.take off) (v := v) (a := a) (t := t) (m := m') ⟨hv', ht, ha, m'.ints.map mpi, by
      rw [List.forall₂_map_right_iff]
      exact List.forall₂_same.mpr fun i hi => looseMpi_mpi (hg i hi).1, hc⟩ (data.drop off)
    rw [List.take_append_drop, h] at hl
    simp only [Except.ok.injEq, Prod.mk.injEq] at hl
    rw [hl.2, hc]
    have hd : daysBytes v.toNat none = .ok [] := by
      unfold daysBytes; rw [if_neg (by omega)]
    have := publicContent_wire (fl := fl) ht hd ha (fun i hi => (hg i hi).2)
    rw [List.append_nil] at this
    exact this

/-- C83: a key with loosely written integers is read, but written with exact ones, and its fingerprint and key id are those of the
octets written, not of the octets received. -/
theorem C83_loose_integers_rewritten (fl : Nat → Nat) (H : Digest) (hH : ∀ d, (H 2 d).length = 20) (v a : UInt8) (t : Bytes) (m : KeyMaterial)
    (c rest : Bytes) (h : LooseKey v a t m c) (hm : ∀ i ∈ m.ints, 0 < i → fl i = Nat.log2 i) :
    ∃ k w, parsePubKey (c ++ rest) = .ok (c.length, k) ∧ w = v :: t ++ a :: (m.ints.map mpi).flatten ∧ k.publicContent fl = .ok w ∧
      k.fingerprint fl H = .ok (hexOf (H 2 ([0x99] ++ beBytes 2 w.length ++ w))) ∧
      k.keyId fl H = .ok (hexOf ((H 2 ([0x99] ++ beBytes 2 w.length ++ w)).drop 12)) := by
  have h1 := looseKey_parse h rest
  obtain ⟨hv, ht, ha, _⟩ := h
  have hd : daysBytes v.toNat none = .ok [] := by
    unfold daysBytes; rw [if_neg (by omega)]
  have hc := publicContent_wire (fl := fl) ht hd ha hm
  rw [List.append_nil] at hc
  obtain ⟨h2, h3⟩ := C23_fingerprint_definition fl H hH _ (by cases m <;> exact hv) _ hc
  exact ⟨_, _, h1, rfl, hc, h2, h3⟩

/-- C83 (part that holds): the fingerprint and key id of a received key are computed from exactly the octets received - if the integers
in them are exact. -/
theorem C83_fingerprint_of_received_partial (fl : Nat → Nat) (H : Digest) (hH : ∀ d, (H 2 d).length = 20) (good : Nat → Prop)
    (hg : ∀ i, good i → LogRoom fl i ∧ (0 < i → fl i = Nat.log2 i)) (c rest : Bytes) (h : KeyWire good c) :
    ∃ k, parsePubKey (c ++ rest) = .ok (c.length, k) ∧
      k.fingerprint fl H = .ok (hexOf (H 2 ([0x99] ++ beBytes 2 c.length ++ c))) ∧
      k.keyId fl H = .ok (hexOf ((H 2 ([0x99] ++ beBytes 2 c.length ++ c)).drop 12)) := by
  obtain ⟨k, h1, h2, _, h4⟩ := keyWire_parse hg h
  obtain ⟨h5, h6⟩ := C23_fingerprint_definition fl H hH k h4 c h2
  exact ⟨k, h1 rest, h5, h6⟩

/-- C83 (refuted): octets behind the integers of a public key packet are dropped without a word. -/
theorem C83_trailing_octets_dropped_refuted (fl : Nat → Nat) (good : Nat → Prop)
    (hg : ∀ i, good i → LogRoom fl i ∧ (0 < i → fl i = Nat.log2 i)) (f : HeaderFormat) (type : Nat) (ht : type = 6 ∨ type = 14) (c rest : Bytes)
    (h : KeyWire good c) (hr : rest ≠ []) :
    ∃ b, readBody ⟨f, type, c ++ rest⟩ = .ok b ∧ b.content fl = .ok c ∧ c ≠ c ++ rest := by
  obtain ⟨k, h1, h2, _, h4⟩ := keyWire_parse hg h
  refine ⟨.key false (type = 14) k none, ?_, ?_, by simpa using hr.symm⟩
  · unfold readBody
    simp only [ht, dite_true, h1]; rfl
  · simp only [KBody.content, h2, except_bind_ok, except_pure, List.append_nil]

/-- C83: the octets of a user id survive exactly if they are UTF-8. -/
theorem C83_user_id_octets_iff (fl : Nat → Nat) (f : HeaderFormat) (c : Bytes) :
    (∃ b, readBody ⟨f, 13, c⟩ = .ok b ∧ b.content fl = .ok c) ↔ Utf8 c := by
  constructor
  · rintro ⟨b, h1, h2⟩
    have : readBody ⟨f, 13, c⟩ = .ok (.uid (userIdParse c)) := rfl
    rw [this] at h1
    cases h1
    simp only [KBody.content, Except.ok.injEq] at h2
    exact ⟨_, h2⟩
  · intro h
    obtain ⟨s, h1, h2, _⟩ := uid_stands (magic := fun _ => []) (fl := fl) (good := fun _ => True) h
    exact ⟨_, h1 f, h2⟩

/-! ### Exporting a key with a photo -/

theorem parseLoop_prefix {rs : List RawPacket} (h : ∀ p ∈ rs, Expressible p) :
    ∃ es, rs.mapM (Packet.toBytes 1) = .ok es ∧ rs.length ≤ es.flatten.length ∧ ∀ {data s : Bytes} {off : Nat} (fuel : Nat),
      s ≠ [] → data.drop off = es.flatten ++ s →
        parseLoop data (rs.length + fuel) off = (do let r ← parseLoop data fuel (off + es.flatten.length); return rs ++ r) := by
  induction rs with
  | nil =>
    refine ⟨[], rfl, by simp, fun {data s off} fuel hs hd => ?_⟩
    simp only [List.length_nil, Nat.zero_add, List.flatten_nil, Nat.add_zero, List.nil_append]
    cases parseLoop data fuel off <;> rfl
  | cons p rs ih =>
    obtain ⟨e, hne, hw, hr⟩ := frame_roundtrip (h p (by simp)) 0
    obtain ⟨es, h1, h2, h3⟩ := ih (fun q hq => h q (by simp [hq]))
    refine ⟨e :: es, ?_, ?_, fun {data s off} fuel hs hd => ?_⟩
    · rw [List.mapM_cons, hw, h1]; rfl
    · have := List.length_pos_iff.mpr hne
      simp only [List.flatten_cons, List.length_append, List.length_cons]; omega
    · rw [List.flatten_cons, List.append_assoc] at hd
      have hlt : off < data.length := by
        by_contra hc
        rw [List.drop_eq_nil_of_le (by omega)] at hd
        have := congrArg List.length hd
        have h0 := List.length_pos_iff.mpr hne
        simp at this; omega
      have hf : (p :: rs).length + fuel = (rs.length + fuel) + 1 := by simp; omega
      rw [hf, parseLoop, if_pos hlt, hr hd]
      simp only [except_bind_ok]
      rw [h3 fuel hs (drop_add_of_drop hd), List.flatten_cons, List.length_append, Nat.add_assoc]
      cases parseLoop data fuel (off + (e.length + es.flatten.length)) <;> rfl

theorem frameLoop_type {data : Bytes} : ∀ (fuel : Nat) {t : Nat} {f : HeaderFormat} {off : Nat} {acc : Bytes} {o : Nat} {p : RawPacket}, t ≠ 0 →
    frameLoop data fuel (some (t, f)) off acc = .ok (o, p) → p.type = t := by
  intro fuel
  induction fuel with
  | zero => intro t f off acc o p _ h; cases h
  | succ fuel ih =>
    intro t f off acc o p ht h
    rw [frameLoop_succ] at h
    simp only [tagStep, if_pos ht, except_bind_ok] at h
    cases f with
    | new =>
      obtain ⟨⟨o1, n, inc⟩, _, h⟩ := except_bind_eq_ok.mp h
      dsimp only at h
      split at h
      · exact ih ht h
      · cases h; rfl
    | old =>
      obtain ⟨⟨o1, n⟩, _, h⟩ := except_bind_eq_ok.mp h
      cases h; rfl

theorem packetFromData_type {data : Bytes} {off o o' t : Nat} {f : HeaderFormat} {p : RawPacket} (hr : readTag data off = .ok (t, f, o)) (ht : t ≠ 0)
    (h : packetFromData data off = .ok (o', p)) : p.type = t := by
  unfold packetFromData at h
  rw [frameLoop_succ] at h
  simp only [tagStep, hr, except_bind_ok] at h
  cases f with
  | new =>
    obtain ⟨⟨o1, n, inc⟩, _, h⟩ := except_bind_eq_ok.mp h
    dsimp only at h
    split at h
    · exact frameLoop_type _ ht h
    · cases h; rfl
  | old =>
    obtain ⟨⟨o1, n⟩, _, h⟩ := except_bind_eq_ok.mp h
    cases h; rfl

theorem readBody_type {r : RawPacket} {b : KBody} (h : readBody r = .ok b) : b.type = r.type := by
  unfold readBody at h
  split at h
  · rename_i ht
    obtain ⟨⟨_, k⟩, _, h⟩ := except_bind_eq_ok.mp h
    cases h
    rcases ht with ht | ht <;> simp [KBody.type, ht]
  split at h
  · rename_i ht
    obtain ⟨⟨_, k⟩, _, h⟩ := except_bind_eq_ok.mp h
    cases h
    rcases ht with ht | ht <;> simp [KBody.type, ht]
  split at h
  · rename_i ht; obtain ⟨_, _, h⟩ := except_bind_eq_ok.mp h; cases h; exact ht.symm
  split at h
  · rename_i ht; cases h; exact ht.symm
  split at h
  · rename_i ht; obtain ⟨_, _, h⟩ := except_bind_eq_ok.mp h; cases h; exact ht.symm
  split at h
  · rename_i ht; obtain ⟨_, _, h⟩ := except_bind_eq_ok.mp h; cases h; exact ht.symm
  · cases h; rfl

theorem mapM_ok_forall₂ {α β : Type} {f : α → Py β} : ∀ {a : List α} {b : List β}, a.mapM f = .ok b → List.Forall₂ (fun x y => f x = .ok y) a b := by
  intro a
  induction a with
  | nil => intro b h; cases h; exact .nil
  | cons x a ih =>
    intro b h
    rw [List.mapM_cons] at h
    obtain ⟨v, h1, h⟩ := except_bind_eq_ok.mp h
    obtain ⟨w, h2, h⟩ := except_bind_eq_ok.mp h
    cases h
    exact .cons h1 (ih h2)

/-- An old-format packet of type 17 gets a tag octet that says: new format, type 4, 5 or 6. -/
theorem photo_tag {c e : Bytes} (hc : c.length < 2 ^ 24) (h : Packet.toBytes 1 ⟨.old, 17, c⟩ = .ok e) :
    ∃ t rest, (t = 4 ∨ t = 5 ∨ t = 6) ∧ e = UInt8.ofNat (0x80 + (0x40 + t)) :: rest := by
  obtain ⟨lt, ns, l, h1, h2, h3, _, _⟩ := old_length_key hc
  unfold Packet.toBytes at h
  simp only [h1, h2, byteOf_lt (show 0x80 + 17 <<< 2 + lt < 256 by have : 17 <<< 2 = 68 := rfl; omega), except_bind_ok, except_pure, Except.ok.injEq] at h
  refine ⟨4 + lt, l ++ c, by omega, ?_⟩
  rw [← h]
  have : 0x80 + 17 <<< 2 + lt = 0x80 + (0x40 + (4 + lt)) := by have : 17 <<< 2 = 68 := rfl; omega
  rw [this]; rfl

theorem first_photo {ps : List KPacket} (hphoto : ∃ p ∈ ps, p.body.type = 17) :
    ∃ pre ph post, ps = pre ++ ph :: post ∧ ph.body.type = 17 ∧ ∀ q ∈ pre, q.body.type ≠ 17 := by
  induction ps with
  | nil => simp at hphoto
  | cons p ps ih =>
    by_cases hp : p.body.type = 17
    · exact ⟨[], p, ps, rfl, hp, by simp⟩
    · obtain ⟨pre, ph, post, h1, h2, h3⟩ := ih (by
        obtain ⟨q, hq, hq'⟩ := hphoto
        rcases List.mem_cons.mp hq with rfl | hq
        · exact absurd hq' hp
        · exact ⟨q, hq, hq'⟩)
      refine ⟨p :: pre, ph, post, by rw [h1]; rfl, h2, fun q hq => ?_⟩
      rcases List.mem_cons.mp hq with rfl | hq
      exacts [hp, h3 q hq]

theorem forall₂_mem_right {α β : Type} {R : α → β → Prop} {a : List α} {b : List β} (h : List.Forall₂ R a b) : ∀ y ∈ b, ∃ x ∈ a, R x y := by
  induction h with
  | nil => simp
  | cons h1 _ ih =>
    intro y hy
    rcases List.mem_cons.mp hy with rfl | hy
    · exact ⟨_, by simp, h1⟩
    · obtain ⟨x, hx, hr⟩ := ih y hy
      exact ⟨x, by simp [hx], hr⟩

theorem forall₂_split {α β : Type} {R : α → β → Prop} : ∀ {a c : List α} {b : List β}, List.Forall₂ R (a ++ c) b →
    ∃ b1 b2, b = b1 ++ b2 ∧ List.Forall₂ R a b1 ∧ List.Forall₂ R c b2 := by
  intro a
  induction a with
  | nil => intro c b h; exact ⟨[], b, rfl, .nil, h⟩
  | cons x a ih =>
    intro c b h
    cases h with
    | cons h1 h2 =>
      obtain ⟨b1, b2, rfl, h3, h4⟩ := ih h2
      exact ⟨_ :: b1, b2, rfl, .cons h1 h3, h4⟩

theorem readKey_head {magic : Bytes → Str} {data : Bytes} {k : TKey} {ps : List KPacket} (hread : readKey magic data = .ok k)
    (hps : k.toPackets = .ok ps) : ∃ p0 ps0, ps = p0 :: ps0 ∧ p0.body.type ≠ 17 := by
  have hprim : ∃ f sec sub k' priv sigs, k.primary = (⟨f, .key sec sub k' priv⟩, sigs) := by
    unfold readKey at hread
    obtain ⟨rs, _, hread⟩ := except_bind_eq_ok.mp hread
    obtain ⟨qs, _, hread⟩ := except_bind_eq_ok.mp hread
    obtain ⟨cl, _, hread⟩ := except_bind_eq_ok.mp hread
    unfold TKey.fromPackets at hread
    obtain ⟨_, _, hread⟩ := except_bind_eq_ok.mp hread
    split at hread
    · obtain ⟨⟨attrs, r3⟩, _, hread⟩ := except_bind_eq_ok.mp hread
      cases hread
      exact ⟨_, _, _, _, _, _, rfl⟩
    · cases hread
  obtain ⟨f, sec, sub, k', priv, sigs, hprim⟩ := hprim
  unfold TKey.toPackets at hps
  obtain ⟨a, ha, h1⟩ := except_bind_eq_ok.mp hps
  obtain ⟨b, _, h2⟩ := except_bind_eq_ok.mp h1
  obtain ⟨c, _, h3⟩ := except_bind_eq_ok.mp h2
  obtain ⟨d, _, h4⟩ := except_bind_eq_ok.mp h3
  simp only [except_pure, Except.ok.injEq] at h4
  subst h4
  rw [hprim] at ha
  unfold groupPackets at ha
  obtain ⟨p, hp, ha1⟩ := except_bind_eq_ok.mp ha
  obtain ⟨ss, _, ha2⟩ := except_bind_eq_ok.mp ha1
  simp only [except_pure, Except.ok.injEq] at ha2
  subst ha2
  refine ⟨p, _, rfl, ?_⟩
  simp only [KElem.toPacket, Except.ok.injEq] at hp
  subst hp
  cases sec <;> cases sub <;> simp [KBody.type]

theorem serializeKey_octets {fl : Nat → Nat} {k : TKey} {ps : List KPacket} {out : Bytes} (hps : k.toPackets = .ok ps)
    (hout : serializeKey fl none k = .ok out) :
    ∃ rs es, ps.mapM (KPacket.raw fl (some .old)) = .ok rs ∧ rs.mapM (Packet.toBytes 1) = .ok es ∧ out = es.flatten := by
  unfold serializeKey TKey.octets at hout
  rw [hps] at hout
  simp only [except_bind_ok, Option.getD_none] at hout
  obtain ⟨rs, hrs, hout⟩ := except_bind_eq_ok.mp hout
  unfold joinPackets at hout
  obtain ⟨es, hes, hout⟩ := except_bind_eq_ok.mp hout
  cases hout
  exact ⟨rs, es, hrs, hes, rfl⟩

theorem mapM_forall₂_unique {α β : Type} {f : α → Py β} {a : List α} {b b' : List β} (h : List.Forall₂ (fun x y => f x = .ok y) a b)
    (h' : a.mapM f = .ok b') : b = b' := by
  replace h' := mapM_ok_forall₂ h'
  induction h generalizing b' with
  | nil => cases h'; rfl
  | cons x _ ih => cases h' with | cons y h' => rw [x] at y; cases y; rw [ih h']

theorem kbody_type_lt {fl : Nat → Nat} {b : KBody} {c : Bytes} (hc : b.content fl = .ok c) (h : b.type ≠ 17) : b.type < 16 := by
  cases b with
  | key sec sub _ _ => cases sec <;> cases sub <;> simp [KBody.type]
  | sig _ => simp [KBody.type]
  | uid _ => simp [KBody.type]
  | attr _ => exact absurd rfl h
  | trust _ => simp [KBody.type]
  | other _ => cases hc

/-- C83 (refuted): a key with a photo that was read from a file, exported with `serialize_key` in its default (old) header format, cannot be
read again: the old format has no room for the packet type of user attributes. -/
theorem C83_photo_export_unreadable_refuted (magic : Bytes → Str) (fl : Nat → Nat) (data out : Bytes) (k : TKey) (ps : List KPacket)
    (hread : readKey magic data = .ok k) (hps : k.toPackets = .ok ps) (hphoto : ∃ p ∈ ps, p.body.type = 17)
    (hsmall : ∀ p ∈ ps, ∀ c, p.body.content fl = .ok c → c.length < 2 ^ 24) (hout : serializeKey fl none k = .ok out) :
    Raises (readKey magic out) := by
  obtain ⟨p0, ps0, e0, hp0⟩ := readKey_head hread hps
  obtain ⟨rs, es, hrs, hes, rfl⟩ := serializeKey_octets hps hout
  clear hout
  obtain ⟨pre, ph, post, hsplit, hph, hpre⟩ := first_photo hphoto
  have hne : pre ≠ [] := by
    rintro rfl
    rw [e0] at hsplit
    cases hsplit
    exact hp0 hph
  subst hsplit
  have hraw := mapM_ok_forall₂ hrs
  obtain ⟨rpre, rest, rfl, hf1, hf2⟩ := forall₂_split hraw
  generalize hl : ph :: post = l at hf2
  cases hf2 with
  | nil => cases hl
  | cons hq hf2 =>
  cases hl
  rename_i q rpost
  have hx : ∀ r ∈ rpre, Expressible r := by
    intro r hr
    obtain ⟨p, hp, hpr⟩ := forall₂_mem_right hf1 r hr
    unfold KPacket.raw at hpr
    obtain ⟨c, hc, hpr⟩ := except_bind_eq_ok.mp hpr
    cases hpr
    refine .inr ⟨rfl, ?_, hsmall p (by simp [hp]) c hc⟩
    exact kbody_type_lt hc (hpre p hp)
  obtain ⟨es1, h1, h2, h3⟩ := parseLoop_prefix hx
  have hes2 := mapM_ok_forall₂ hes
  obtain ⟨b1, b2, rfl, g1, g2⟩ := forall₂_split hes2
  have hb1 : b1 = es1 := mapM_forall₂_unique g1 h1
  subst hb1
  generalize hl : q :: rpost = l at g2
  cases g2 with
  | nil => cases hl
  | cons ge g2 =>
  cases hl
  rename_i e er
  have hqe : q.type = 17 ∧ q.fmt = .old ∧ q.content.length < 2 ^ 24 := by
    unfold KPacket.raw at hq
    obtain ⟨c, hc, hq⟩ := except_bind_eq_ok.mp hq
    cases hq
    exact ⟨hph, rfl, hsmall ph (by simp) c hc⟩
  have hqq : q = ⟨.old, 17, q.content⟩ := by
    cases q; simp_all
  rw [hqq] at ge
  obtain ⟨t, er', ht, rfl⟩ := photo_tag hqe.2.2 ge
  -- what is read
  generalize hdat : (b1 ++ (UInt8.ofNat (0x80 + (0x40 + t)) :: er') :: er).flatten = out
  have hd0 : out.drop 0 = b1.flatten ++ (UInt8.ofNat (0x80 + (0x40 + t)) :: (er' ++ er.flatten)) := by rw [← hdat]; simp
  have hlen : out.length = rpre.length + (out.length - rpre.length) := by
    have := congrArg List.length hd0
    simp only [List.drop_zero, List.length_append, List.length_cons] at this; omega
  have hdt := drop_add_of_drop hd0
  rw [Nat.zero_add] at hdt
  have htag := readTag_new (show t < 64 by omega) hdt
  cases hk : readKey magic out with
  | error er => exact ⟨er, rfl⟩
  | ok k' =>
    exfalso
    unfold readKey at hk
    obtain ⟨rs, hr, hk⟩ := except_bind_eq_ok.mp hk
    obtain ⟨qs, hqs, hk⟩ := except_bind_eq_ok.mp hk
    obtain ⟨cl, _, hk⟩ := except_bind_eq_ok.mp hk
    unfold TKey.fromPackets at hk
    obtain ⟨_, hval, hk⟩ := except_bind_eq_ok.mp hk
    clear hk
    unfold parseBinaryPacketData at hr
    rw [hlen, h3 (out.length - rpre.length) (by simp) hd0, Nat.zero_add] at hr
    obtain ⟨r, hr', hr⟩ := except_bind_eq_ok.mp hr
    cases hr
    have hq' : ∃ x xs, r = x :: xs ∧ x.type = t := by
      have hlt : b1.flatten.length < out.length := by
        have := congrArg List.length hd0
        simp only [List.drop_zero, List.length_append, List.length_cons] at this; omega
      have hpos : 0 < out.length - rpre.length := by omega
      generalize out.length - rpre.length = fuel at hr' hpos
      cases fuel with
      | zero => omega
      | succ fuel =>
        rw [parseLoop, if_pos hlt] at hr'
        obtain ⟨⟨o, x⟩, hx1, hr'⟩ := except_bind_eq_ok.mp hr'
        obtain ⟨xs, _, hr'⟩ := except_bind_eq_ok.mp hr'
        cases hr'
        exact ⟨x, xs, rfl, packetFromData_type htag (by omega) hx1⟩
    obtain ⟨x, xs, rfl, hxt⟩ := hq'
    obtain ⟨q1, q2, rfl, f1, f2⟩ := forall₂_split (mapM_ok_forall₂ hqs)
    obtain ⟨y, ys, fx, f2, rfl⟩ := List.forall₂_cons_left_iff.mp f2
    have hyt : y.body.type = t := by
      unfold readPacket at fx
      obtain ⟨b, hb, fx⟩ := except_bind_eq_ok.mp fx
      cases fx
      rw [readBody_type hb, hxt]
    have hq1 : q1 ≠ [] := by
      rintro rfl
      cases f1
      cases hf1
      exact hne rfl
    obtain ⟨⟨k0, priv, rest, hr1, hr2⟩, hr3⟩ := C35_accepted_shape _ _ hval
    have hmem : y.body ∈ rest := by
      cases q1 with
      | nil => exact absurd rfl hq1
      | cons z q1 =>
        simp only [List.cons_append, List.map_cons, List.cons.injEq] at hr1
        rw [← hr1.2]; simp
    rcases hr3 y.body (by simp) with h | ⟨sub, k1, p1, h⟩
    · rw [hyt] at h
      simp at h; omega
    · rw [h] at hyt hmem
      cases sub with
      | false => exact hr2 _ hmem _ _ _ rfl
      | true =>
        cases hs : cl.isSecretInstance <;> rw [hs] at hyt <;> simp [KBody.type] at hyt <;> omega

/-! ### An example -/

theorem oldShortest {n : UInt8} {k : Nat} (h : n.toNat = k) : OldDefinite 0 [n] k ∧ ∀ lt' l', OldDefinite lt' l' k → [n].length ≤ l'.length := by
  subst h
  refine ⟨?_, fun lt' l' h' => ?_⟩
  · have := OldDefinite.one [n] rfl
    rwa [beNat_singleton] at this
  · rcases oldDefinite_length h' with h | h | h <;> simp <;> omega

theorem exHeader {f : HeaderFormat} {type : Nat} {c : Bytes} {n : UInt8} (h : n.toNat = c.length) (h0 : 0 < c.length) (h1 : c.length < 192) (ht : type < 16) :
    HeaderOf f type c.length [UInt8.ofNat ((if f = .new then 0xc0 + type else 0x80 + 4 * type)), n] := by
  cases f with
  | new => exact ⟨by omega, h0, [n], shortest_one h h1, rfl⟩
  | old => exact ⟨ht, by omega, 0, [n], (oldShortest h).1, (oldShortest h).2, rfl⟩

/-- A key with a direct signature, a certified user id and a bound subkey. -/
def exKeyOctets : Bytes := (4 :: [0, 0, 3, 232] ++ 1 :: [0, 12, 12, 161, 0, 5, 17])
def exSigPlain (t : UInt8) : Bytes := exSigOctets t 1 8 5 6 (exSub false 2 5 [1, 2, 3, 4] ++ []) [] [7]
def exPacket (f : HeaderFormat) (type : Nat) (n : UInt8) (c : Bytes) : Bytes := [UInt8.ofNat ((if f = .new then 0xc0 + type else 0x80 + 4 * type)), n] ++ c
def exFile (f : HeaderFormat) : Bytes :=
  exPacket f 6 13 exKeyOctets ++ (exPacket f 2 19 (exSigPlain 0x1f) ++ (exPacket f 13 5 [0x41, 0x6c, 0xc3, 0xa9, 0x21] ++ exPacket f 2 19 (exSigPlain 0x13)) ++
    [] ++ (exPacket f 14 13 exKeyOctets ++ (exPacket f 2 19 (exSigPlain 0x18) ++ [])))

theorem exKeyOctets_ok : KeyWire (· < 4096) exKeyOctets :=
  ⟨4, 1, [0, 0, 3, 232], .rsa 3233 17, by decide, rfl, .inl rfl, by simp [KeyMaterial.ints], by decide +kernel⟩

theorem exSigPlain_ok (t : UInt8) : SigWire (· < 4096) (exSigPlain t) := by
  have h1 : SubWire (· < 4096) (exSub false 2 5 [1, 2, 3, 4]) := .plain (shortest_one rfl (by decide)) (.time (by decide) rfl)
  exact .mk (values := [7]) (.cons h1 .nil) .nil (by decide) (by decide) (by simp)

theorem cat_one {P : List UInt8 → Prop} {b : List UInt8} (h : P b) : Cat P b := ⟨[b], by simpa using h, by simp⟩

theorem exFile_ok (magic : Bytes → Str) (f : HeaderFormat) : PublicKeyFile magic (· = f) (· < 4096) (exFile f) := by
  have key : ∀ type, type < 16 → PacketOf (· = f) type (KeyWire (· < 4096)) (exPacket f type 13 exKeyOctets) := fun type ht =>
    ⟨f, _, _, rfl, exKeyOctets_ok, exHeader rfl (by decide) (by decide) ht, rfl⟩
  have sig : ∀ (t : Nat) (ts : List Nat), t ∈ ts → SigPacket (· = f) (· < 4096) ts (exPacket f 2 19 (exSigPlain (UInt8.ofNat t))) := fun t ts ht =>
    ⟨f, _, _, rfl, ⟨exSigPlain_ok _, t, ht, rfl⟩, exHeader rfl (by simp [exSigPlain, exSigOctets]) (by
      show (exSigPlain (UInt8.ofNat t)).length < 192
      simp only [exSigPlain, exSigOctets, List.length_append, List.length_cons, beBytes_length]
      decide) (by decide), rfl⟩
  have uid : PacketOf (· = f) 13 Utf8 (exPacket f 13 5 [0x41, 0x6c, 0xc3, 0xa9, 0x21]) :=
    ⟨f, _, _, rfl, ⟨"Alé!".toList, by decide +kernel⟩, exHeader rfl (by decide) (by decide) (by decide), rfl⟩
  exact ⟨_, _, _, _, _, key 6 (by decide), cat_one (sig 0x1f _ (by decide)), cat_one ⟨_, _, uid, cat_one (sig 0x13 _ (by decide)), rfl⟩, ⟨[], by simp, rfl⟩,
    cat_one ⟨_, _, [], key 14 (by decide), sig 0x18 _ (by decide), ⟨[], by simp, rfl⟩, rfl⟩, rfl⟩

theorem exGood : ∀ i, i < 4096 → LogRoom Nat.log2 i ∧ (0 < i → Nat.log2 i = Nat.log2 i) := fun i hi =>
  ⟨logRoom_of_exact rfl (Nat.lt_of_lt_of_le (show i < 2 ^ 12 by omega) (Nat.pow_le_pow_right (by decide) (by decide))), fun _ => rfl⟩

example (magic : Bytes → Str) := C83_import_export_partial magic Nat.log2 (· < 4096) exGood (· = .new) (exFile .new) (exFile_ok magic .new)
example (magic : Bytes → Str) := C83_serialize_key_partial magic Nat.log2 (· < 4096) exGood .old (exFile .old) (exFile_ok magic .old)


example (H : Digest) (hH : ∀ d, (H 2 d).length = 20) := C83_fingerprint_of_received_partial Nat.log2 H hH (· < 4096) exGood exKeyOctets [9] exKeyOctets_ok
example := C83_trailing_octets_dropped_refuted Nat.log2 (· < 4096) exGood .new 6 (.inl rfl) exKeyOctets [9] exKeyOctets_ok (by simp)

/-- The same key with a bit count that is too large by one. -/
def exLooseOctets : Bytes := 4 :: [0, 0, 3, 232] ++ 1 :: ([[0, 13, 12, 161], [0, 5, 17]] : List Bytes).flatten

theorem exLooseOctets_ok : LooseKey 4 1 [0, 0, 3, 232] (.rsa 3233 17) exLooseOctets :=
  ⟨by decide, rfl, .inl rfl, _, .cons ⟨13, [12, 161], by decide, rfl, rfl, rfl⟩ (.cons ⟨5, [17], by decide, rfl, rfl, rfl⟩ .nil), rfl⟩

theorem exLooseOctets_ne : exLooseOctets ≠ 4 :: [0, 0, 3, 232] ++ 1 :: ((KeyMaterial.rsa 3233 17).ints.map mpi).flatten := by decide +kernel

example (H : Digest) (hH : ∀ d, (H 2 d).length = 20) := C83_loose_integers_rewritten Nat.log2 H hH 4 1 [0, 0, 3, 232] (.rsa 3233 17) exLooseOctets []
  exLooseOctets_ok (fun _ _ _ => rfl)

example := C83_key_octets_iff Nat.log2 exKeyOctets 13 4 1000 1 (.rsa 3233 17) rfl (by decide) (by
  intro i hi
  refine ⟨Nat.lt_of_lt_of_le (show i < 2 ^ 12 by simp [KeyMaterial.ints] at hi; omega) (Nat.pow_le_pow_right (by decide) (by decide)), fun _ => rfl⟩)

/-- A key with a photo. -/
def exPhotoImage : Bytes := [19, 1, 16, 0, 1, 1] ++ List.replicate 12 0 ++ [0xff, 0xd8]
def exPhotoBytes : Bytes := exPacket .new 6 13 exKeyOctets ++ exPacket .new 17 20 exPhotoImage
def exPhotoMime : Str := "image/jpeg".toList
def exPhotoPackets : List KPacket :=
  [⟨.new, .key false false (mkPubKey 4 1000 1 none (.rsa 3233 17)) none⟩, ⟨.new, .attr [.image 1 16 (some 1) [0xff, 0xd8]]⟩]
def exPhotoKey : TKey :=
  ⟨(⟨.new, .key false false (mkPubKey 4 1000 1 none (.rsa 3233 17)) none⟩, []), [], [(⟨.new, .attr [(exPhotoMime, [0xff, 0xd8])]⟩, [])], []⟩

example := C83_photo_export_unreadable_refuted (fun _ => exPhotoMime) Nat.log2 exPhotoBytes
  (exPacket .old 6 13 exKeyOctets ++ ([0xc4, 20] ++ exPhotoImage)) exPhotoKey exPhotoPackets rfl rfl ⟨_, List.mem_cons_of_mem _ (List.mem_singleton.mpr rfl), rfl⟩
  (by
    intro p hp c hc
    simp only [exPhotoPackets, List.mem_cons, List.not_mem_nil, or_false] at hp
    rcases hp with rfl | rfl
    · have : c = exKeyOctets := (Except.ok.inj hc).symm
      subst this; decide
    · have : c = exPhotoImage := (Except.ok.inj hc).symm
      subst this; decide) rfl

end Pgp.Props
