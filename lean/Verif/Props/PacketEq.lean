import Verif.Props.Hex
import Verif.Model.PacketEq
import Verif.Spec.PacketEq
import Verif.Props.KeyFile
import Verif.Props.PacketWire
import Verif.Props.SecretKey
import Verif.Lemmas.SigMeaning
import Verif.Props.Signature
import Verif.Props.SigMeaning
/-
Property theorems C92: comparing packets.
-/
namespace Pgp.Props
open Spec

/-! ### Field by field -/

theorem s2kEq_iff (a b : S2K) : a.pyEq b = true ↔ a = b := by
  cases a <;> cases b <;> simp only [S2K.pyEq, Bool.and_eq_true, decide_eq_true_eq] <;> simp [S2K.hash, S2K.sym, S2K.saltOf, S2K.countOf, and_assoc]
  all_goals tauto

theorem pubEq_iff (a b : PubKey) : a.pyEq b = true ↔ a = b := by
  cases a; cases b; simp [PubKey.pyEq]; tauto

theorem secEq_iff (a b : SecKey) : a.pyEq b = true ↔ a = b := by
  cases a; cases b; simp [SecKey.pyEq, s2kEq_iff, pubEq_iff]; tauto

theorem attrEq_iff (a b : AttrSub) : a.pyEq b = true ↔ a = b := by
  cases a <;> cases b <;> simp [AttrSub.pyEq, and_assoc]

theorem listEq_iff {α : Type} {eq : α → α → Bool} (h : ∀ a b, eq a b = true ↔ a = b) : ∀ l m : List α, listEq eq l m = true ↔ l = m := by
  intro l
  induction l with
  | nil => intro m; cases m <;> simp [listEq]
  | cons a l ih => intro m; cases m <;> simp [listEq, h, ih]

/-- The classes whose comparison looks at everything. -/
def Regular : AnyBody → Prop
  | .sig _ | .onePass _ | .base _ _ => False
  | _ => True

theorem bodyEq_iff (fl : Nat → Nat) (a b : AnyBody) (ha : Regular a) : ∃ r, a.pyEq fl b = .ok r ∧ (r = true ↔ a = b) := by
  cases a <;> first | exact False.elim ha | skip
  all_goals
    cases b <;> simp only [AnyBody.pyEq, Except.ok.injEq, exists_eq_left'] <;> try simp
  case pkEsk.pkEsk a b => cases a; cases b; simp [PkEsk.pyEq, and_assoc]
  case skEsk.skEsk a b => cases a; cases b; simp [SkEsk.pyEq, s2kEq_iff, and_assoc]
  case pub.pub s a s' b => simp [pubEq_iff]
  case sec.sec s a s' b => simp [secEq_iff]
  case compressed.compressed a b => cases a; cases b; simp
  case literal.literal a b => cases a; cases b; simp [and_assoc]
  case trust.trust a b => cases a; cases b; simp
  case attrs.attrs a b => exact listEq_iff attrEq_iff a b
  case seipd.seipd a b => cases a; cases b; simp
  case control.control a b => cases a; cases b; simp [and_assoc]

/-! ### Contents and fields -/

def litBody (f : UInt8) : LitData → Bytes
  | .octets b => b
  | .text s => if f = 0x75 then utf8Encode s else latin1Encode s

def litStamp : LitTime → Nat
  | .int n => n
  | .datetime n => n

/-- The octets a packet was read from. -/
def bodySource : AnyBody → Py Bytes
  | .pkEsk p => p.content
  | .skEsk p => p.content Nat.log2
  | .pub _ k => k.publicContent Nat.log2
  | .sec _ k => k.content Nat.log2 (.ok [])
  | .compressed c => c.content
  | .encrypted d => .ok d
  | .literal l => .ok (l.dataFormat :: UInt8.ofNat (utf8Encode l.filename).length :: (utf8Encode l.filename ++ beBytes 4 (litStamp l.time) ++ litBody l.dataFormat l.data))
  | .trust t => t.content
  | .uid s => .ok (userIdContent s)
  | .comment _ s => .ok (commentContent s)
  | .attrs as => attrsContent as
  | .seipd s => s.content
  | .mdc d => .ok d
  | .control g => g.content
  | _ => .error .valueError

/-- The packet type of the class. -/
def bodyType : AnyBody → Nat
  | .pkEsk _ => 1
  | .sig _ => 2
  | .skEsk _ => 3
  | .onePass _ => 4
  | .pub s _ => if s then 14 else 6
  | .sec s _ => if s then 7 else 5
  | .compressed _ => 8
  | .encrypted _ => 9
  | .literal _ => 11
  | .trust _ => 12
  | .uid _ => 13
  | .comment g _ => if g then 61 else 16
  | .attrs _ => 17
  | .seipd _ => 18
  | .mdc _ => 19
  | .control _ => 63
  | .base t _ => t

theorem publicKey_read {v a : UInt8} {t dd : Bytes} {m : KeyMaterial} (ht : t.length = 4)
    (hd : (v = 2 ∨ v = 3) ∧ dd.length = 2 ∨ 4 ≤ v.toNat ∧ dd = []) (hm : m.fits a.toNat) (hi : ∀ i ∈ m.ints, i < 2 ^ 65535) :
    ∃ days, DaysOctets v days dd ∧
      ∀ rest, parsePubKey (v :: t ++ dd ++ a :: (m.ints.map mpi).flatten ++ rest) = .ok ((v :: t ++ dd ++ a :: (m.ints.map mpi).flatten).length,
        mkPubKey v.toNat (beNat t) a.toNat days m) := by
  have hdays : ∃ days, DaysOctets v days dd := by
    rcases hd with ⟨h1, h2⟩ | ⟨h1, h2⟩
    · exact ⟨some (beNat dd), .inl ⟨h1, h2, rfl⟩⟩
    · exact ⟨none, .inr ⟨h1, h2, rfl⟩⟩
  obtain ⟨days, hdays⟩ := hdays
  have hb : List.Forall₂ LooseMpi m.ints (m.ints.map mpi) := by
    have : ∀ l : List Nat, (∀ i ∈ l, i < 2 ^ 65535) → List.Forall₂ LooseMpi l (l.map mpi) := by
      intro l
      induction l with
      | nil => intro _; exact .nil
      | cons x l ih => intro h; exact .cons (looseMpi_mpi (h x (by simp))) (ih fun i hi => h i (by simp [hi]))
    exact this _ hi
  refine ⟨days, hdays, fun rest => key_read ht hm hb rest ?_⟩
  generalize hdat : v :: t ++ dd ++ a :: (m.ints.map mpi).flatten ++ rest = data
  have d1 : data.drop 1 = t ++ (dd ++ a :: ((m.ints.map mpi).flatten ++ rest)) := by rw [← hdat]; simp
  have d5 : data.drop 5 = dd ++ a :: ((m.ints.map mpi).flatten ++ rest) := by
    have := drop_add_of_drop' d1 (n := 4) ht.symm
    exact this
  rcases hdays with ⟨hv, h2, rfl⟩ | ⟨hv, rfl, rfl⟩
  · have : shortToInt data 5 = .ok (beNat dd) := bytesToInt_of_drop d5 h2.symm
    simp only [readDays, if_pos hv, this, except_bind_ok, except_pure, h2]
  · have h2 : ¬ (v = 2 ∨ v = 3) := by rintro (rfl | rfl) <;> exact absurd hv (by decide)
    rw [readDays, if_neg h2, if_pos (by rw [ge_iff_le, UInt8.le_iff_toNat_le]; exact hv)]; rfl

theorem publicContent_read {c : Bytes} (h : PublicContent c) :
    ∃ k, (∀ rest, parsePubKey (c ++ rest) = .ok (c.length, k)) ∧ k.publicContent Nat.log2 = .ok c := by
  obtain ⟨v, a, t, dd, m, ht, hd, hm, hi, rfl⟩ := h
  obtain ⟨days, hdays, h⟩ := publicKey_read ht hd hm hi
  exact ⟨_, h, C87_public_key_written Nat.log2 v a t dd days m ht hdays hm (fun _ _ _ => rfl)⟩

theorem secret_read {pub : Bytes} {u c : UInt8} {sp : Specifier} {iv enc : Bytes} (hk : PublicContent pub) (hu : u = 254 ∨ u = 255) (hw : sp.wellFormed)
    (hb : blockOctets c.toNat = some iv.length) :
    ∃ k, parseSecKey (pub ++ (u :: c :: sp.octets ++ iv ++ enc)) = .ok k ∧ k.content Nat.log2 (.ok []) = .ok (pub ++ (u :: c :: sp.octets ++ iv ++ enc)) := by
  obtain ⟨k, h1, h2⟩ := publicContent_read hk
  have h1 := h1 (u :: c :: sp.octets ++ iv ++ enc)
  generalize hdat : pub ++ (u :: c :: sp.octets ++ iv ++ enc) = data at h1 ⊢
  have d0 : data.drop pub.length = u :: c :: (sp.octets ++ (iv ++ enc)) := by rw [← hdat, List.drop_left]; simp
  have d1 := drop_succ_of_drop d0
  have d2 := drop_succ_of_drop d1
  have d3 := drop_add_of_drop d2
  have d4 := drop_add_of_drop d3
  have hb' : blockLengths c.toNat = some iv.length := by rw [blockLengths_eq]; exact hb
  have hu0 : ¬u = 0 := by rcases hu with rfl | rfl <;> decide
  have hiv : slice data (pub.length + 1 + 1 + sp.octets.length) (pub.length + 1 + 1 + sp.octets.length + iv.length) = iv := slice_of_drop d3 rfl
  have hp : parseSecKey data = .ok ⟨k, specObj c.toNat sp, c.toNat, iv, enc, u = 255, u = 254⟩ := by
    simp only [parseSecKey, h1, except_bind_ok, parseSecretPart, idx_of_drop d0, idx_of_drop d1, if_neg hu0, if_pos hu, spec_read sp hw c.toNat d2, secretTail, hb', hiv, d4]
  refine ⟨_, hp, ?_⟩
  have hiv' : (if c.toNat ≠ 0 then iv else []) = iv := by
    split
    · rfl
    · rename_i h0
      rw [Classical.not_not.mp h0] at hb
      cases iv with
      | nil => rfl
      | cons x l => simp [blockOctets] at hb
  have hus : (if (decide (u = 255)) = true then (255 : UInt8) else 254) = u := by rcases hu with rfl | rfl <;> rfl
  have he : (if enc ≠ [] then (Except.ok enc : Py Bytes) else .ok []) = .ok enc := by
    split
    · rfl
    · rename_i h; rw [Classical.not_not.mp h]
  simp only [SecKey.content, SecKey.protection, h2, byteOf_toNat, spec_written Nat.log2 (fun _ _ _ => rfl), except_bind_ok, except_pure, he, hiv', hus]
  rw [← hdat]
  simp

theorem latin1_back (b : Bytes) : latin1Encode (b.map fun x => Char.ofNat x.toNat) = b := by
  induction b with
  | nil => rfl
  | cons x b ih =>
    have hx := x.toNat_lt
    have h : (Char.ofNat x.toNat).toNat = x.toNat := toNat_char (.inl (by omega))
    simp only [latin1Encode, List.map_cons, List.map_map] at ih ⊢
    rw [ih, h, if_pos hx, UInt8.ofNat_toNat]

/-- A packet with such a content is read, into one of these classes, and the fields give the content back. -/
theorem exact_read {t : Nat} {c : Bytes} (h : ExactContent t c) :
    ∃ b, (∀ f, readAny ⟨f, t, c⟩ = .ok ⟨f, b⟩) ∧ Regular b ∧ bodyType b = t ∧ bodySource b = .ok c := by
  cases h with
  | publicKeySessionKey v a id d hid =>
    obtain ⟨h1, h2⟩ := C87_public_key_session_key v a id d hid
    exact ⟨.pkEsk _, fun f => by simp only [readAny, h1]; rfl, trivial, rfl, h2⟩
  | symmetricSessionKey v s n sp d hn hw hd =>
    obtain ⟨h1, h2⟩ := C87_symmetric_session_key Nat.log2 (fun _ _ _ => rfl) v s n hn sp hw d hd
    exact ⟨.skEsk _, fun f => by simp only [readAny, h1]; rfl, trivial, rfl, h2⟩
  | secret t pub u s sp iv enc ht hk hu hw hb =>
    obtain ⟨k, h1, h2⟩ := secret_read (enc := enc) hk hu hw hb
    rcases ht with rfl | rfl
    · exact ⟨.sec false k, fun f => by simp only [readAny, h1]; rfl, trivial, rfl, h2⟩
    · exact ⟨.sec true k, fun f => by simp only [readAny, h1]; rfl, trivial, rfl, h2⟩
  | publicKey t c ht hk =>
    obtain ⟨k, h1, h2⟩ := publicContent_read hk
    have h1 := h1 []
    rw [List.append_nil] at h1
    rcases ht with rfl | rfl
    · exact ⟨.pub false k, fun f => by simp only [readAny, h1]; rfl, trivial, rfl, h2⟩
    · exact ⟨.pub true k, fun f => by simp only [readAny, h1]; rfl, trivial, rfl, h2⟩
  | compressed x d =>
    refine ⟨.compressed ⟨x.toNat, d⟩, fun f => rfl, trivial, rfl, ?_⟩
    simp only [bodySource, Compressed.content, byteOf_toNat, except_bind_ok, except_pure]
  | encrypted d => exact ⟨.encrypted _, fun f => rfl, trivial, rfl, rfl⟩
  | literal f n name t body hn ht hu =>
    have h := C87_literal f n name t body hn ht
    have ht' : beBytes 4 (beNat t) = t := by rw [← ht, beBytes_beNat]
    have hn' : UInt8.ofNat (utf8Encode name).length = n := by rw [hn, UInt8.ofNat_toNat]
    by_cases h1 : f = 0x75
    · subst h1
      obtain ⟨s, rfl⟩ := hu rfl
      exact ⟨.literal _, fun g => by simp only [readAny, h.2.2 s rfl]; rfl, trivial, rfl, by simp [bodySource, litBody, litStamp, ht', hn']⟩
    · by_cases h2 : f = 0x74
      · subst h2
        refine ⟨.literal _, fun g => by simp only [readAny, h.2.1]; rfl, trivial, rfl, ?_⟩
        simp only [bodySource, litBody, litStamp, ht', hn', if_neg h1, latin1_back]
      · exact ⟨.literal _, fun g => by simp only [readAny, h.1 h2 h1]; rfl, trivial, rfl, by simp [bodySource, litBody, litStamp, ht', hn']⟩
  | trust x =>
    refine ⟨.trust ⟨x.toNat, none⟩, fun f => ?_, trivial, rfl, ?_⟩
    · have : Trust.parse [x] = .ok ⟨x.toNat, none⟩ := by simp [Trust.parse, idx]
      simp only [readAny, this]; rfl
    · simp only [bodySource, Trust.content, byteOf_toNat, except_bind_ok, except_pure]
  | trustCache x hx =>
    obtain ⟨w, h1, h2⟩ := (C64_small_packets_roundtrip ⟨0, []⟩ (by decide) ⟨0, []⟩ (by decide) [] (List.replicate 20 0) rfl ⟨List.replicate 8 0, 0, []⟩
      ⟨rfl, by decide⟩ ⟨0, some x.toNat⟩ ⟨Nat.zero_lt_succ _, fun n hn => ⟨rfl, by cases hn; exact hx⟩⟩).2.2.2.2.2.2
    have hw : w = [0, x] := by
      have : (Trust.mk 0 (some x.toNat)).content = .ok [0, x] := by
        simp only [Trust.content, byteOf_toNat, byteOf_lt (show 0 < 256 by omega), except_bind_ok, except_pure]; rfl
      rw [this] at h1; exact (Except.ok.inj h1).symm
    subst hw
    exact ⟨.trust _, fun f => by simp only [readAny, h2]; rfl, trivial, rfl, h1⟩
  | userId c hc =>
    obtain ⟨s, rfl⟩ := hc
    exact ⟨.uid s, fun f => by simp only [readAny, userIdParse, utf8DecodeReplace_encode]; rfl, trivial, rfl, rfl⟩
  | comment t c ht hc =>
    obtain ⟨s, rfl⟩ := hc
    rcases ht with rfl | rfl
    · exact ⟨.comment false s, fun f => by simp only [readAny, commentParse, utf8DecodeStrict_encode]; rfl, trivial, rfl, rfl⟩
    · exact ⟨.comment true s, fun f => by simp only [readAny, commentParse, utf8DecodeStrict_encode]; rfl, trivial, rfl, rfl⟩
  | images l hl =>
    have hone : ∀ x ∈ l, (AttrSub.image 1 16 (some x.2.2.toNat) x.2.1).toBytes = .ok (x.1 ++ 1 :: [16, 0, 1, x.2.2] ++ List.replicate 12 0 ++ x.2.1) := by
      intro x hx
      have := (C87_attribute x.1 x.2.1 x.2.2 (hl x hx)).2
      unfold attrsContent at this
      simp only [List.mapM_cons, List.mapM_nil] at this
      obtain ⟨es, h1, h2⟩ := except_bind_eq_ok.mp this
      obtain ⟨e, h3, h4⟩ := except_bind_eq_ok.mp h1
      cases h4
      have h5 := Except.ok.inj h2
      rw [List.flatten_cons, List.flatten_nil, List.append_nil] at h5
      rw [← h5]
      exact h3
    have hall : (l.map fun x => AttrSub.image 1 16 (some x.2.2.toNat) x.2.1).mapM AttrSub.toBytes =
        .ok (l.map fun x => x.1 ++ 1 :: [16, 0, 1, x.2.2] ++ List.replicate 12 0 ++ x.2.1) := by
      clear hl
      induction l with
      | nil => rfl
      | cons x l ih =>
        rw [List.map_cons, List.mapM_cons, hone x (by simp), ih fun y hy => hone y (by simp [hy])]
        rfl
    obtain ⟨w, h1, h2⟩ := C51_attributes_roundtrip (l.map fun x => AttrSub.image 1 16 (some x.2.2.toNat) x.2.1) (by
      intro a ha
      obtain ⟨x, hx, rfl⟩ := List.mem_map.mp ha
      exact ⟨rfl, rfl, ⟨_, rfl, x.2.2.toNat_lt⟩, newDefinite_le (hl x hx).1⟩)
    have hw : w = (l.map fun x => x.1 ++ 1 :: [16, 0, 1, x.2.2] ++ List.replicate 12 0 ++ x.2.1).flatten := by
      unfold attrsContent at h1
      rw [hall] at h1
      exact (Except.ok.inj h1).symm
    subst hw
    exact ⟨.attrs _, fun f => by simp only [readAny, h2]; rfl, trivial, rfl, h1⟩
  | integrity x d =>
    refine ⟨.seipd ⟨x.toNat, d⟩, fun f => rfl, trivial, rfl, ?_⟩
    simp only [bodySource, Seipd.content, byteOf_toNat, except_bind_ok, except_pure]
  | digest d hd => exact ⟨.mdc c, fun f => by simp only [readAny, mdcParse, if_pos hd]; rfl, trivial, rfl, rfl⟩
  | control m x d hm =>
    obtain ⟨h1, h2⟩ := (C87_small_packets x d m [] hm (List.replicate 20 0) rfl).2.2.2.2.2
    exact ⟨.control _, fun f => by simp only [readAny, h1]; rfl, trivial, rfl, h2⟩

/-- C92 (part that holds): packets of every class but signatures, one-pass signatures and unknown types are read, and the packets read compare equal exactly if
header format, type and content are the same. -/
theorem C92_equal_iff_partial (fl : Nat → Nat) (r s : RawPacket) (hr : ExactContent r.type r.content) (hs : ExactContent s.type s.content) :
    ∃ a b e, readAny r = .ok a ∧ readAny s = .ok b ∧ a.pyEq fl b = .ok e ∧ (e = true ↔ r = s) := by
  obtain ⟨f, t, c⟩ := r
  obtain ⟨f', t', c'⟩ := s
  obtain ⟨a, a1, a2, a3, a4⟩ := exact_read hr
  obtain ⟨b, b1, b2, b3, b4⟩ := exact_read hs
  obtain ⟨e, he, hi⟩ := bodyEq_iff fl a b a2
  have hab : a = b ↔ t = t' ∧ c = c' := by
    constructor
    · rintro rfl
      rw [a4] at b4
      exact ⟨a3.symm.trans b3, Except.ok.inj b4⟩
    · rintro ⟨rfl, rfl⟩
      have h1 := a1 .new
      rw [b1 .new] at h1
      injection h1 with h1
      injection h1 with _ h1
      exact h1.symm
  by_cases hf : f = f'
  · refine ⟨_, _, e, a1 f, b1 f', by simp [AnyPacket.pyEq, hf, he], ?_⟩
    rw [hi, hab]; simp [hf]
  · refine ⟨_, _, false, a1 f, b1 f', by simp [AnyPacket.pyEq, hf], ?_⟩
    simp [hf]

example := C92_equal_iff_partial Nat.log2 ⟨.new, 8, [1, 2, 3]⟩ ⟨.new, 8, [2, 2, 3]⟩ (.compressed 1 [2, 3]) (.compressed 2 [2, 3])
example := C92_equal_iff_partial Nat.log2 ⟨.new, 11, [0x74, 1, 0x61, 0, 0, 0, 9, 0xe9]⟩ ⟨.new, 11, [0x75, 1, 0x61, 0, 0, 0, 9, 0xc3, 0xa9]⟩
  (.literal 0x74 1 ['a'] [0, 0, 0, 9] [0xe9] (by decide) rfl (fun h => absurd h (by decide)))
  (.literal 0x75 1 ['a'] [0, 0, 0, 9] [0xc3, 0xa9] (by decide) rfl (fun _ => ⟨['é'], by decide +kernel⟩))
theorem lt_big {i : Nat} (h : i < 2 ^ 8) : i < 2 ^ 65535 := Nat.lt_of_lt_of_le h (Nat.pow_le_pow_right (by decide) (by decide))
example := C92_equal_iff_partial Nat.log2 ⟨.old, 6, _⟩ ⟨.old, 14, _⟩
  (.publicKey 6 _ (.inl rfl) ⟨4, 1, [0, 0, 1, 0], [], .rsa 35 5, rfl, .inr ⟨by decide, rfl⟩, .inl rfl, fun i hi => lt_big (by revert i; decide), rfl⟩)
  (.publicKey 14 _ (.inr rfl) ⟨3, 17, [0, 0, 1, 0], [1, 2], .dsa 23 11 4 9, rfl, .inl ⟨.inr rfl, rfl⟩, rfl, fun i hi => lt_big (by revert i; decide), rfl⟩)

/-! ### Signatures -/

/-- What is known of a subpacket that was read from a raw one. -/
theorem rawKept_read {fl : Nat → Nat} {good : Nat → Prop} (hg : ∀ i, good i → LogRoom fl i ∧ (0 < i → fl i = Nat.log2 i)) {r : RawSub}
    (h : RawKept good r) (hn : r.content.length + 1 ≤ 4294967295) :
    ∃ x l, readRaw r = .ok x ∧ NewDefinite l (r.content.length + 1) ∧ r.ty < 128 ∧
      Sub.toBytes fl x = .ok (l ++ [UInt8.ofNat (r.ty + if r.critical then 128 else 0)] ++ r.content) := by
  obtain ⟨l, h8, h9, _⟩ := newPacketLengthToBytes_definite hn false
  rcases h with h | ⟨h, hw⟩
  · obtain ⟨v, h1, h2, h3⟩ := kept_plain h
    obtain ⟨c, h4, h5, h6, h7⟩ := plain_roundtrip h1
    rw [h3] at h4
    cases h4
    rw [h2] at h5 h6 h7
    refine ⟨.plain r.critical v, l, ?_, h9, h6, ?_⟩
    · rw [readRaw_plain h7, h5]; rfl
    · rw [Sub.toBytes, h3, h2]
      simp only [subBytes, h8, byteOf_lt (show (r.ty + if r.critical then 0x80 else 0) < 256 by split <;> omega), except_bind_ok, except_pure]
  · obtain ⟨sig, h1, h2⟩ := sigWire_ok hg hw
    obtain ⟨e, h3, h4⟩ := sigOk_write h1
    rw [h2] at h3
    cases h3
    refine ⟨.embedded r.critical sig, l, ?_, h9, by omega, ?_⟩
    · rw [readRaw, readSub, if_pos h, h4]; rfl
    · rw [Sub.toBytes, h2, h]
      simp only [subBytes, h8, byteOf_lt (show (32 + if r.critical then 0x80 else 0) < 256 by split <;> omega), except_bind_ok, except_pure]

/-- Reading is a function of the raw subpacket that `Sub.same` inverts. -/
theorem rawKept_same {fl : Nat → Nat} {good : Nat → Prop} (hg : ∀ i, good i → LogRoom fl i ∧ (0 < i → fl i = Nat.log2 i)) {r r' : RawSub} {x x' : Sub}
    (h : RawKept good r) (hn : r.content.length + 1 ≤ 4294967295) (h' : RawKept good r') (hn' : r'.content.length + 1 ≤ 4294967295)
    (hx : readRaw r = .ok x) (hx' : readRaw r' = .ok x') : Sub.same fl x x' = true ↔ r = r' := by
  obtain ⟨y, l, a1, a2, a3, a4⟩ := rawKept_read hg h hn
  obtain ⟨y', l', b1, b2, b3, b4⟩ := rawKept_read hg h' hn'
  rw [hx] at a1; cases a1
  rw [hx'] at b1; cases b1
  constructor
  · intro hs
    simp only [Sub.same, a4, b4, Bool.and_eq_true, decide_eq_true_eq] at hs
    have p := subHeader_write (critical := r.critical) (s := []) (off := 0) a3 a2 (List.append_nil _).symm
    have q := subHeader_write (critical := r'.critical) (s := []) (off := 0) b3 b2 (List.append_nil _).symm
    rw [hs.2, q] at p
    cases r; cases r'
    simp only [Except.ok.injEq, Prod.mk.injEq] at p
    obtain ⟨rfl, rfl, rfl, _⟩ := p
    rfl
  · rintro rfl
    rw [hx] at hx'; cases hx'
    exact sub_same_refl a4

theorem rawSubs_small {rs : List RawSub} {b : Bytes} (h : RawSubs rs b) : ∀ r ∈ rs, r.content.length + 1 ≤ b.length := by
  induction h with
  | nil => intro r hr; cases hr
  | @cons r rs l rest hl ht hs ih =>
    intro x hx
    simp only [List.length_append, List.length_cons, List.length_nil]
    rcases List.mem_cons.mp hx with rfl | hx
    · omega
    · have := ih x hx; omega

theorem rawSubs_read {fl : Nat → Nat} {good : Nat → Prop} (hg : ∀ i, good i → LogRoom fl i ∧ (0 < i → fl i = Nat.log2 i)) {rs : List RawSub}
    (h : ∀ r ∈ rs, RawKept good r) (hn : ∀ r ∈ rs, r.content.length + 1 ≤ 4294967295) :
    ∃ xs es, List.mapM readRaw rs = .ok xs ∧ List.mapM (Sub.toBytes fl) xs = .ok es ∧ List.Forall₂ (fun r x => readRaw r = .ok x) rs xs := by
  induction rs with
  | nil => exact ⟨[], [], rfl, rfl, .nil⟩
  | cons r rs ih =>
    obtain ⟨xs, es, h1, h2, h3⟩ := ih (fun y hy => h y (by simp [hy])) (fun y hy => hn y (by simp [hy]))
    obtain ⟨x, l, a1, _, _, a4⟩ := rawKept_read hg (h r (by simp)) (hn r (by simp))
    exact ⟨x :: xs, _ :: es, by rw [List.mapM_cons, a1, h1]; rfl, by rw [List.mapM_cons, a4, h2]; rfl, .cons a1 h3⟩

theorem forall₂_mem {α β : Type} {R : α → β → Prop} {l : List α} {m : List β} (h : List.Forall₂ R l m) : (∀ a ∈ l, ∃ b ∈ m, R a b) ∧ ∀ b ∈ m, ∃ a ∈ l, R a b := by
  induction h with
  | nil => simp
  | cons h _ ih =>
    refine ⟨fun a ha => ?_, fun b hb => ?_⟩
    · rcases List.mem_cons.mp ha with rfl | ha
      · exact ⟨_, List.mem_cons_self, h⟩
      · obtain ⟨b, hb, hr⟩ := ih.1 a ha; exact ⟨b, List.mem_cons_of_mem _ hb, hr⟩
    · rcases List.mem_cons.mp hb with rfl | hb
      · exact ⟨_, List.mem_cons_self, h⟩
      · obtain ⟨a, ha, hr⟩ := ih.2 b hb; exact ⟨a, List.mem_cons_of_mem _ ha, hr⟩

theorem rawSubs_setEq {fl : Nat → Nat} {good : Nat → Prop} (hg : ∀ i, good i → LogRoom fl i ∧ (0 < i → fl i = Nat.log2 i)) {rs rs' : List RawSub}
    (h : ∀ r ∈ rs, RawKept good r) (hn : ∀ r ∈ rs, r.content.length + 1 ≤ 4294967295)
    (h' : ∀ r ∈ rs', RawKept good r) (hn' : ∀ r ∈ rs', r.content.length + 1 ≤ 4294967295) :
    ∃ xs xs' e, List.mapM readRaw rs = .ok xs ∧ List.mapM readRaw rs' = .ok xs' ∧ subSetEq fl xs xs' = .ok e ∧ (e = true ↔ ∀ r, r ∈ rs ↔ r ∈ rs') := by
  obtain ⟨xs, es, a1, a2, a3⟩ := rawSubs_read hg h hn
  obtain ⟨xs', es', b1, b2, b3⟩ := rawSubs_read hg h' hn'
  have m1 := forall₂_mem a3
  have m2 := forall₂_mem b3
  refine ⟨xs, xs', _, a1, b1, by rw [subSetEq, a2, b2]; rfl, ?_⟩
  simp only [Bool.and_eq_true, List.all_eq_true, List.any_eq_true]
  constructor
  · rintro ⟨e1, e2⟩ r
    constructor
    · intro hr
      obtain ⟨x, hx, hrx⟩ := m1.1 r hr
      obtain ⟨y, hy, hs⟩ := e1 x hx
      obtain ⟨r', hr', hry⟩ := m2.2 y hy
      rw [(rawKept_same hg (h r hr) (hn r hr) (h' r' hr') (hn' r' hr') hrx hry).mp hs]
      exact hr'
    · intro hr
      obtain ⟨x, hx, hrx⟩ := m2.1 r hr
      obtain ⟨y, hy, hs⟩ := e2 x hx
      obtain ⟨r', hr', hry⟩ := m1.2 y hy
      rw [(rawKept_same hg (h' r hr) (hn' r hr) (h r' hr') (hn r' hr') hrx hry).mp hs]
      exact hr'
  · intro e
    constructor
    · intro x hx
      obtain ⟨r, hr, hrx⟩ := m1.2 x hx
      obtain ⟨y, hy, hry⟩ := m2.1 r ((e r).mp hr)
      exact ⟨y, hy, (rawKept_same hg (h r hr) (hn r hr) (h r hr) (hn r hr) hrx hry).mpr rfl⟩
    · intro x hx
      obtain ⟨r, hr, hrx⟩ := m2.2 x hx
      obtain ⟨y, hy, hry⟩ := m1.1 r ((e r).mpr hr)
      exact ⟨y, hy, (rawKept_same hg (h' r hr) (hn' r hr) (h' r hr) (hn' r hr) hrx hry).mpr rfl⟩

/-- C92 (part that holds): version 4 signatures whose subpackets say nothing that is forgotten compare equal exactly if type, algorithms, left octets of the hash and
integers are the same and the same subpackets occur in the hashed parts and in the unhashed parts - in whatever order, however often and with whatever form of length. -/
theorem C92_signature_partial (fl : Nat → Nat) (good : Nat → Prop) (hg : ∀ i, good i → LogRoom fl i ∧ (0 < i → fl i = Nat.log2 i)) (f f' : HeaderFormat)
    (t p h t' p' h' : UInt8) (hashed unhashed hashed' unhashed' : List RawSub) (left left' : Bytes) (values values' : List Nat) (b b' : Bytes)
    (hb : SigRaw t p h hashed unhashed left values b) (hb' : SigRaw t' p' h' hashed' unhashed' left' values' b')
    (hk : ∀ r ∈ hashed ++ unhashed ++ hashed' ++ unhashed', RawKept good r) :
    ∃ x y e, readAny ⟨f, 2, b⟩ = .ok x ∧ readAny ⟨f', 2, b'⟩ = .ok y ∧ x.pyEq fl y = .ok e ∧
      (e = true ↔ f = f' ∧ t = t' ∧ p = p' ∧ h = h' ∧ left = left' ∧ values = values' ∧ (∀ r, r ∈ hashed ↔ r ∈ hashed') ∧ ∀ r, r ∈ unhashed ↔ r ∈ unhashed') := by
  have s1 := parseSig_raw hb
  have s2 := parseSig_raw hb'
  obtain ⟨hd, ud, _, r1, r2, l1, l2, _⟩ := hb
  obtain ⟨hd', ud', _, r1', r2', l1', l2', _⟩ := hb'
  simp only [List.mem_append] at hk
  obtain ⟨xs, xs', e, a1, a2, a3, a4⟩ := rawSubs_setEq hg (rs := hashed) (rs' := hashed') (fun r hr => hk r (by simp [hr]))
    (fun r hr => by have := rawSubs_small r1 r hr; omega) (fun r hr => hk r (by simp [hr])) (fun r hr => by have := rawSubs_small r1' r hr; omega)
  obtain ⟨ys, ys', e', b1, b2, b3, b4⟩ := rawSubs_setEq hg (rs := unhashed) (rs' := unhashed') (fun r hr => hk r (by simp [hr]))
    (fun r hr => by have := rawSubs_small r2 r hr; omega) (fun r hr => hk r (by simp [hr])) (fun r hr => by have := rawSubs_small r2' r hr; omega)
  simp only [a1, a2, b1, b2, except_bind_ok, except_pure] at s1 s2
  have hv : values.map some = values'.map some ↔ values = values' := ⟨fun h => List.map_injective_iff.mpr (Option.some_injective _) h, fun h => by rw [h]⟩
  have key : ∃ r, AnyPacket.pyEq fl ⟨f, .sig (.v4 4 t.toNat p.toNat h.toNat xs ys left (values.map some))⟩
      ⟨f', .sig (.v4 4 t'.toNat p'.toNat h'.toNat xs' ys' left' (values'.map some))⟩ = .ok r ∧
      (r = true ↔ f = f' ∧ t = t' ∧ p = p' ∧ h = h' ∧ left = left' ∧ values = values' ∧ (∀ r, r ∈ hashed ↔ r ∈ hashed') ∧ ∀ r, r ∈ unhashed ↔ r ∈ unhashed') := by
    by_cases hf : f = f'
    · by_cases hc : t = t' ∧ p = p' ∧ h = h' ∧ left = left' ∧ values = values'
      · obtain ⟨rfl, rfl, rfl, rfl, rfl⟩ := hc
        cases e with
        | false => exact ⟨false, by simp [AnyPacket.pyEq, AnyBody.pyEq, Sig.pyEq, hf, a3], by rw [← a4]; simp⟩
        | true => exact ⟨e', by simp [AnyPacket.pyEq, AnyBody.pyEq, Sig.pyEq, hf, a3, b3], by rw [← a4, ← b4]; simp [hf]⟩
      · refine ⟨false, ?_, ?_⟩
        · have : ¬(4 = 4 ∧ t.toNat = t'.toNat ∧ p.toNat = p'.toNat ∧ h.toNat = h'.toNat ∧ left = left' ∧ values.map some = values'.map some) := by
            rw [UInt8.toNat_inj, UInt8.toNat_inj, UInt8.toNat_inj, hv]
            exact fun h => hc h.2
          show (if f = f' then (if _ then _ else _) else _) = _
          rw [if_pos hf]
          exact if_neg this
        · constructor
          · intro h; cases h
          · rintro ⟨_, h1, h2, h3, h4, h5, _⟩; exact absurd ⟨h1, h2, h3, h4, h5⟩ hc
    · exact ⟨false, by simp [AnyPacket.pyEq, hf], by simp [hf]⟩
  obtain ⟨r, k1, k2⟩ := key
  exact ⟨⟨f, .sig _⟩, ⟨f', .sig _⟩, r, by simp only [readAny, s1]; rfl, by simp only [readAny, s2]; rfl, k1, k2⟩

/-- Three kept subpackets, and the same in another order, one of them twice. -/
def exEqD : Bytes := ([2] ++ [UInt8.ofNat (27 + if true then 128 else 0)] ++ [3]) ++ (([3] ++ [UInt8.ofNat (11 + if false then 128 else 0)] ++ [9, 7]) ++ [])
def exEqD' : Bytes := ([3] ++ [UInt8.ofNat (11 + if false then 128 else 0)] ++ [9, 7]) ++ (([255, 0, 0, 0, 2] ++ [UInt8.ofNat (27 + if true then 128 else 0)] ++ [3]) ++
  (([3] ++ [UInt8.ofNat (11 + if false then 128 else 0)] ++ [9, 7]) ++ []))
def exEqA : RawSub := ⟨27, true, [3]⟩
def exEqB : RawSub := ⟨11, false, [9, 7]⟩
theorem exEqD_ok : RawSubs [exEqA, exEqB] exEqD :=
  .cons (r := exEqA) (.one 2 (by decide)) (by decide) (.cons (r := exEqB) (.one 3 (by decide)) (by decide) .nil)
theorem exEqD'_ok : RawSubs [exEqB, exEqA, exEqB] exEqD' :=
  .cons (r := exEqB) (.one 3 (by decide)) (by decide) (.cons (r := exEqA) (.five 0 0 0 2) (by decide) (.cons (r := exEqB) (.one 3 (by decide)) (by decide) .nil))
theorem exEq_kept {r : RawSub} (h : r ∈ [exEqA, exEqB]) : RawKept (fun i => i < 2 ^ 65535) r := by
  rcases List.mem_cons.mp h with rfl | h
  · exact .inl (.flags (by decide))
  · rcases List.mem_cons.mp h with rfl | h
    · exact .inl (.codes _ (by decide))
    · cases h
def exEqS : Bytes := [4, 0x13, 1, 8] ++ beBytes 2 exEqD.length ++ exEqD ++ beBytes 2 0 ++ [] ++ [5, 6] ++ [[0, 9, 1, 1]].flatten
def exEqS' : Bytes := [4, 0x13, 1, 8] ++ beBytes 2 exEqD'.length ++ exEqD' ++ beBytes 2 0 ++ [] ++ [5, 6] ++ [[0, 9, 1, 1]].flatten
theorem exEqV : List.Forall₂ LooseMpi [257] [[0, 9, 1, 1]] := .cons ⟨9, [1, 1], by decide, rfl, rfl, rfl⟩ .nil
theorem exEqS_ok : SigRaw 0x13 1 8 [exEqA, exEqB] [] [5, 6] [257] exEqS := ⟨exEqD, [], _, exEqD_ok, .nil, by decide, by decide, rfl, exEqV, rfl⟩
theorem exEqS'_ok : SigRaw 0x13 1 8 [exEqB, exEqA, exEqB] [] [5, 6] [257] exEqS' := ⟨exEqD', [], _, exEqD'_ok, .nil, by decide, by decide, rfl, exEqV, rfl⟩

example := C92_signature_partial Nat.log2 (fun i => i < 2 ^ 65535) (fun i hi => ⟨logRoom_of_exact rfl hi, fun _ => rfl⟩) .new .old 0x13 1 8 0x13 1 8
  [exEqA, exEqB] [] [exEqB, exEqA, exEqB] [] [5, 6] [5, 6] [257] [257] exEqS exEqS' exEqS_ok exEqS'_ok (fun r hr => exEq_kept (by simp at hr ⊢; tauto))

/-- C92 fails: signatures that differ in the order, the number or the written length of their subpackets - so that different octets were hashed - compare equal. -/
theorem C92_signature_order_refuted (fl : Nat → Nat) (good : Nat → Prop) (hg : ∀ i, good i → LogRoom fl i ∧ (0 < i → fl i = Nat.log2 i)) (f : HeaderFormat)
    (t p h : UInt8) (hashed hashed' : List RawSub) (left : Bytes) (values : List Nat) (b b' : Bytes)
    (hb : SigRaw t p h hashed [] left values b) (hb' : SigRaw t p h hashed' [] left values b') (hk : ∀ r ∈ hashed ++ hashed', RawKept good r)
    (hs : ∀ r, r ∈ hashed ↔ r ∈ hashed') :
    ∃ x y, readAny ⟨f, 2, b⟩ = .ok x ∧ readAny ⟨f, 2, b'⟩ = .ok y ∧ x.pyEq fl y = .ok true := by
  obtain ⟨x, y, e, h1, h2, h3, h4⟩ := C92_signature_partial fl good hg f f t p h t p h hashed [] hashed' [] left left values values b b' hb hb' (by simpa using hk)
  rw [h4.mpr ⟨rfl, rfl, rfl, rfl, rfl, rfl, hs, fun _ => Iff.rfl⟩] at h3
  exact ⟨x, y, h1, h2, h3⟩

example : exEqS ≠ exEqS' := by decide
example := C92_signature_order_refuted Nat.log2 (fun i => i < 2 ^ 65535) (fun i hi => ⟨logRoom_of_exact rfl hi, fun _ => rfl⟩) .new 0x13 1 8
  [exEqA, exEqB] [exEqB, exEqA, exEqB] [5, 6] [257] exEqS exEqS' exEqS_ok exEqS'_ok (fun r hr => exEq_kept (by simp at hr ⊢; tauto)) (fun r => by simp; tauto)

/-! ### What the comparison leaves out -/

/-- C92 fails: signatures of versions 2 and 3 cannot be compared: AttributeError if version, type, algorithms, left octets of the hash and integers are the same, also
for a signature with itself. -/
theorem C92_v3_signature_raises (fl : Nat → Nat) (f : HeaderFormat) (v t a h : UInt8) (hv : v = 2 ∨ v = 3) (c id c' id' h2 : Bytes) (hc : c.length = 4)
    (hid : id.length = 8) (hc' : c'.length = 4) (hid' : id'.length = 8) (hh : h2.length = 2) (l : List Nat) (bs : List Bytes) (hb : List.Forall₂ LooseMpi l bs) :
    ∃ x y, readAny ⟨f, 2, v :: 5 :: t :: (c ++ id ++ a :: h :: (h2 ++ bs.flatten))⟩ = .ok x ∧
      readAny ⟨f, 2, v :: 5 :: t :: (c' ++ id' ++ a :: h :: (h2 ++ bs.flatten))⟩ = .ok y ∧ x.pyEq fl y = .error .attributeError ∧
      x.pyEq fl x = .error .attributeError := by
  have h1 := C87_signature_v3_partial v t a h hv c id h2 hc hid hh l bs hb
  have h2 := C87_signature_v3_partial v t a h hv c' id' h2 hc' hid' hh l bs hb
  exact ⟨_, _, by simp only [readAny, h1]; rfl, by simp only [readAny, h2]; rfl, by simp [AnyPacket.pyEq, AnyBody.pyEq, Sig.pyEq],
    by simp [AnyPacket.pyEq, AnyBody.pyEq, Sig.pyEq]⟩

example := C92_v3_signature_raises Nat.log2 .new 3 0 1 8 (.inr rfl) [0, 0, 1, 0] [1, 2, 3, 4, 5, 6, 7, 8] [0, 0, 1, 1] [1, 2, 3, 4, 5, 6, 7, 8] [9, 9] rfl rfl rfl rfl rfl
  [23] [[0, 5, 23]] (.cons ⟨5, [23], by decide, rfl, rfl, rfl⟩ .nil)

/-- C92 fails: one-pass signatures compare equal exactly if type, algorithms, nesting octet and the first half of the key id are the same: versions and the last four
octets of the key id - the short key id - do not count. -/
theorem C92_one_pass_refuted (fl : Nat → Nat) (f : HeaderFormat) (v t h a n v' t' h' a' n' : UInt8) (id id' : Bytes) (hid : id.length = 8) (hid' : id'.length = 8) :
    ∃ x y e, readAny ⟨f, 4, v :: t :: h :: a :: (id ++ [n])⟩ = .ok x ∧ readAny ⟨f, 4, v' :: t' :: h' :: a' :: (id' ++ [n'])⟩ = .ok y ∧ x.pyEq fl y = .ok e ∧
      (e = true ↔ t = t' ∧ h = h' ∧ a = a' ∧ n = n' ∧ id.take 4 = id'.take 4) := by
  have h1 := (C87_one_pass_partial v t h a n id hid).2
  have h2 := (C87_one_pass_partial v' t' h' a' n' id' hid').2
  generalize he1 : OnePass.mk v.toNat t.toNat h.toNat a.toNat (hexText (id.take 4)) n.toNat = p at h1
  generalize he2 : OnePass.mk v'.toNat t'.toNat h'.toNat a'.toNat (hexText (id'.take 4)) n'.toNat = q at h2
  refine ⟨⟨f, .onePass p⟩, ⟨f, .onePass q⟩, p.pyEq q, by simp only [readAny, h1]; rfl, by simp only [readAny, h2]; rfl, if_pos rfl, ?_⟩
  subst he1 he2
  have hx : hexText (id.take 4) = hexText (id'.take 4) ↔ id.take 4 = id'.take 4 := ⟨fun h => hexText_inj h, fun h => by rw [h]⟩
  simp only [OnePass.pyEq, Bool.and_eq_true, decide_eq_true_eq, UInt8.toNat_inj, hx]
  tauto

example := C92_one_pass_refuted Nat.log2 .new 3 0 8 1 1 4 0 8 1 1 [1, 2, 3, 4, 5, 6, 7, 8] [1, 2, 3, 4, 9, 9, 9, 9] rfl rfl

/-- C92 fails: packets of a type the library does not know compare equal whatever they contain. -/
theorem C92_unknown_type_refuted (fl : Nat → Nat) (f : HeaderFormat) (t : Nat) (ht : t = 0 ∨ t = 15 ∨ 19 < t ∧ t ≠ 61 ∧ t ≠ 63) (c c' : Bytes) :
    ∃ x y, readAny ⟨f, t, c⟩ = .ok x ∧ readAny ⟨f, t, c'⟩ = .ok y ∧ x.pyEq fl y = .ok true := by
  have hr : ∀ c, readAny ⟨f, t, c⟩ = .ok ⟨f, .base t c⟩ := by
    intro c
    unfold readAny
    split
    all_goals first | rfl | (rename_i h; simp only at h; omega)
  exact ⟨_, _, hr c, hr c', by simp [AnyPacket.pyEq, AnyBody.pyEq]⟩

example := C92_unknown_type_refuted Nat.log2 .new 60 (by decide) [1] [2, 3]

/-- C92 fails: to every user id that is not UTF-8 there is another one that compares equal. -/
theorem C92_user_id_refuted (fl : Nat → Nat) (f : HeaderFormat) (w : Bytes) (h : none ∈ utf8Units w) :
    ∃ w' x y, w' ≠ w ∧ readAny ⟨f, 13, w⟩ = .ok x ∧ readAny ⟨f, 13, w'⟩ = .ok y ∧ x.pyEq fl y = .ok true := by
  obtain ⟨_, w', h1, h2⟩ := C64_user_id_not_utf8_refuted w h
  exact ⟨w', ⟨f, .uid (userIdParse w)⟩, ⟨f, .uid (userIdParse w')⟩, h1, rfl, rfl, by simp [AnyPacket.pyEq, AnyBody.pyEq, h2]⟩

example := C92_user_id_refuted Nat.log2 .new [0x61, 0xff] (by decide +kernel)

/-- C92 fails: of a trust packet only the first octet is compared, unless it is a zero and there is one more. -/
theorem C92_trust_refuted (fl : Nat → Nat) (f : HeaderFormat) (v : UInt8) (r r' : Bytes) (h : v ≠ 0 ∨ r.length ≠ 1 ∧ r'.length ≠ 1) :
    ∃ x y, readAny ⟨f, 12, v :: r⟩ = .ok x ∧ readAny ⟨f, 12, v :: r'⟩ = .ok y ∧ x.pyEq fl y = .ok true := by
  have hr : ∀ r, v ≠ 0 ∨ r.length ≠ 1 → readAny ⟨f, 12, v :: r⟩ = .ok ⟨f, .trust ⟨v.toNat, none⟩⟩ := by
    intro r hr
    have hn : ¬ (v.toNat = 0 ∧ (v :: r).length = 2) := by
      rintro ⟨h1, h2⟩
      rcases hr with hr | hr
      · exact hr (UInt8.toNat_inj.mp h1)
      · simp at h2; exact hr (by simpa using h2)
    have : Trust.parse (v :: r) = .ok ⟨v.toNat, none⟩ := by
      simp only [Trust.parse, show idx (v :: r) 0 = .ok v from rfl, except_bind_ok, if_neg hn]; rfl
    simp only [readAny, this]; rfl
  exact ⟨_, _, hr r (by tauto), hr r' (by tauto), by simp [AnyPacket.pyEq, AnyBody.pyEq]⟩

example := C92_trust_refuted Nat.log2 .new 5 [1] [2, 3] (.inl (by decide))

/-! ### The relation -/

theorem same_symm {fl : Nat → Nat} {a b : Sub} : Sub.same fl a b = Sub.same fl b a := by
  unfold Sub.same
  cases Sub.toBytes fl a <;> cases Sub.toBytes fl b <;> simp [eq_comm]

theorem same_trans {fl : Nat → Nat} {a b c : Sub} (h : Sub.same fl a b = true) (h' : Sub.same fl b c = true) : Sub.same fl a c = true := by
  unfold Sub.same at h h' ⊢
  revert h h'
  cases Sub.toBytes fl a <;> cases Sub.toBytes fl b <;> cases Sub.toBytes fl c <;> simp <;> intros <;> simp_all

theorem setEq_inv {fl : Nat → Nat} {a b : List Sub} {e : Bool} (h : subSetEq fl a b = .ok e) :
    (∃ x, List.mapM (Sub.toBytes fl) a = .ok x) ∧ (∃ y, List.mapM (Sub.toBytes fl) b = .ok y) ∧
      (e = true ↔ (∀ x ∈ a, ∃ y ∈ b, Sub.same fl x y = true) ∧ ∀ y ∈ b, ∃ x ∈ a, Sub.same fl y x = true) := by
  unfold subSetEq at h
  obtain ⟨x, hx, h⟩ := except_bind_eq_ok.mp h
  obtain ⟨y, hy, h⟩ := except_bind_eq_ok.mp h
  cases h
  refine ⟨⟨x, hx⟩, ⟨y, hy⟩, ?_⟩
  simp only [Bool.and_eq_true, List.all_eq_true, List.any_eq_true]

theorem setEq_of {fl : Nat → Nat} {a b : List Sub} {x y : List Bytes} (hx : List.mapM (Sub.toBytes fl) a = .ok x) (hy : List.mapM (Sub.toBytes fl) b = .ok y) :
    ∃ e, subSetEq fl a b = .ok e := ⟨_, by rw [subSetEq, hx, hy]; rfl⟩

theorem setEq_symm {fl : Nat → Nat} {a b : List Sub} {e : Bool} (h : subSetEq fl a b = .ok e) : subSetEq fl b a = .ok e := by
  obtain ⟨⟨x, hx⟩, ⟨y, hy⟩, hi⟩ := setEq_inv h
  obtain ⟨e', he'⟩ := setEq_of hy hx
  obtain ⟨_, _, hi'⟩ := setEq_inv he'
  rw [he']
  congr 1
  rw [Bool.eq_iff_iff, hi, hi']
  exact And.comm

theorem setEq_trans {fl : Nat → Nat} {a b c : List Sub} (h : subSetEq fl a b = .ok true) (h' : subSetEq fl b c = .ok true) : subSetEq fl a c = .ok true := by
  obtain ⟨⟨x, hx⟩, _, hi⟩ := setEq_inv h
  obtain ⟨_, ⟨z, hz⟩, hi'⟩ := setEq_inv h'
  obtain ⟨e, he⟩ := setEq_of hx hz
  obtain ⟨_, _, hi''⟩ := setEq_inv he
  rw [he, hi''.mpr]
  obtain ⟨p, q⟩ := hi.mp rfl
  obtain ⟨p', q'⟩ := hi'.mp rfl
  constructor
  · intro u hu
    obtain ⟨v, hv, h1⟩ := p u hu
    obtain ⟨w, hw, h2⟩ := p' v hv
    exact ⟨w, hw, same_trans h1 h2⟩
  · intro u hu
    obtain ⟨v, hv, h1⟩ := q' u hu
    obtain ⟨w, hw, h2⟩ := q v hv
    exact ⟨w, hw, same_trans h1 h2⟩

/-- C92: comparing does not depend on the side. -/
theorem C92_symmetric (fl : Nat → Nat) (a b : AnyPacket) (e : Bool) (h : a.pyEq fl b = .ok e) : b.pyEq fl a = .ok e := by
  obtain ⟨f, a⟩ := a
  obtain ⟨f', b⟩ := b
  unfold AnyPacket.pyEq at h ⊢
  simp only at h ⊢
  by_cases hf : f = f'
  · rw [if_pos hf] at h
    rw [if_pos hf.symm]
    by_cases hr : Regular a
    · obtain ⟨r, h1, h2⟩ := bodyEq_iff fl a b hr
      rw [h1] at h; cases h
      by_cases hr' : Regular b
      · obtain ⟨r', h3, h4⟩ := bodyEq_iff fl b a hr'
        rw [h3]; congr 1
        rw [Bool.eq_iff_iff, h2, h4, eq_comm]
      · have hab : a ≠ b := fun e => hr' (e ▸ hr)
        have : e = false := by cases e with
          | false => rfl
          | true => exact absurd (h2.mp rfl) hab
        subst this
        cases b <;> first | exact absurd trivial hr' | skip
        all_goals cases a <;> first | exact False.elim hr | rfl
    · cases a <;> first | exact absurd trivial hr | skip
      all_goals cases b <;> simp only [AnyBody.pyEq] at h ⊢ <;> try exact h
      · rename_i a b
        cases a <;> cases b <;> simp only [Sig.pyEq] at h ⊢ <;> try exact h
        · split at h
          · cases h
          · rename_i hn; rw [if_neg (by simpa only [eq_comm] using hn)]; exact h
        · split at h
          · rename_i hp
            rw [if_pos (by simpa only [eq_comm] using hp)]
            obtain ⟨x, h1, h⟩ := except_bind_eq_ok.mp h
            rw [setEq_symm h1, except_bind_ok]
            cases x with
            | false => exact h
            | true => exact setEq_symm h
          · rename_i hn; rw [if_neg (by simpa only [eq_comm] using hn)]; exact h
      · rename_i a b
        rw [← h]; congr 1
        simp only [OnePass.pyEq, eq_comm]
      · rename_i t _ t' _
        rw [← h]; congr 1
        simp only [eq_comm]
  · rw [if_neg hf] at h
    rw [if_neg (fun e => hf e.symm)]; exact h

/-- C92: packets that compare equal to the same packet compare equal. -/
theorem C92_transitive (fl : Nat → Nat) (a b c : AnyPacket) (h : a.pyEq fl b = .ok true) (h' : b.pyEq fl c = .ok true) : a.pyEq fl c = .ok true := by
  obtain ⟨f, a⟩ := a
  obtain ⟨f', b⟩ := b
  obtain ⟨f'', c⟩ := c
  unfold AnyPacket.pyEq at h h' ⊢
  simp only at h h' ⊢
  by_cases hf : f = f'
  · by_cases hf' : f' = f''
    · rw [if_pos hf] at h
      rw [if_pos hf'] at h'
      rw [if_pos (hf.trans hf')]
      by_cases hr : Regular a
      · obtain ⟨r, h1, h2⟩ := bodyEq_iff fl a b hr
        rw [h1] at h; cases h
        rw [h2.mp rfl]; exact h'
      · cases a <;> first | exact absurd trivial hr | skip
        all_goals cases b <;> simp only [AnyBody.pyEq] at h <;> first | cases h | skip
        all_goals cases c <;> simp only [AnyBody.pyEq] at h' ⊢ <;> first | cases h' | skip
        · rename_i a b c
          cases a <;> cases b <;> simp only [Sig.pyEq] at h <;> first | cases h | skip
          · split at h <;> cases h
          · cases c <;> simp only [Sig.pyEq] at h' ⊢ <;> first | cases h' | skip
            split at h
            · rename_i hp
              split at h'
              · rename_i hp'
                obtain ⟨rfl, rfl, rfl, rfl, rfl, rfl⟩ := hp
                rw [if_pos hp']
                obtain ⟨x, h1, h⟩ := except_bind_eq_ok.mp h
                obtain ⟨x', h1', h'⟩ := except_bind_eq_ok.mp h'
                cases x <;> simp at h
                cases x' <;> simp at h'
                rw [setEq_trans h1 h1', except_bind_ok]
                exact setEq_trans h h'
              · cases h'
            · cases h
        · simp only [OnePass.pyEq, Except.ok.injEq, Bool.and_eq_true, decide_eq_true_eq] at h h' ⊢
          obtain ⟨⟨⟨⟨a1, a2⟩, a3⟩, a4⟩, a5⟩ := h
          rw [a1, a2, a3, a4, a5]; exact h'
        · simp only [Except.ok.injEq, decide_eq_true_eq] at h h' ⊢
          exact h.trans h'
    · rw [if_neg hf'] at h'; cases h'
  · rw [if_neg hf] at h; cases h

example : ∃ a b : AnyPacket, a.pyEq Nat.log2 b = .ok true ∧ b.pyEq Nat.log2 a = .ok true :=
  ⟨⟨.new, .onePass ⟨3, 0, 8, 1, "01020304".toList, 1⟩⟩, ⟨.new, .onePass ⟨2, 0, 8, 1, "01020304".toList, 1⟩⟩, by decide +kernel, by decide +kernel⟩

end Pgp.Props
