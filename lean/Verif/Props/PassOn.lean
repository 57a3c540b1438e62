import Verif.Lemmas.PassOn
import Verif.Props.Settle
/-
Property theorems C123: a message that was received, whatever its octets, is passed on unchanged.
-/
namespace Pgp.Props
open Spec

variable {fl : Nat → Nat} {good : Nat → Prop} {o : Nat → Py Bytes} {accept : RawPacket → Py Unit}

theorem body_literal {r : RawPacket} {f : HeaderFormat} {l : Literal} (h : parseMPacket accept r = .ok ⟨f, .literal l⟩) : Literal.parse r.content = .ok l := by
  unfold parseMPacket parseMBody at h
  obtain ⟨b, hb, h⟩ := except_bind_eq_ok.mp h
  cases h
  repeat' split at hb
  all_goals first
    | (obtain ⟨x, hx, hb⟩ := except_bind_eq_ok.mp hb; cases hb; exact hx)
    | (obtain ⟨x, hx, hb⟩ := except_bind_eq_ok.mp hb; cases hb)
    | cases hb

theorem body_compressed {r : RawPacket} {f : HeaderFormat} {c : Compressed} (h : parseMPacket accept r = .ok ⟨f, .compressed c⟩) : Compressed.parse r.content = .ok c := by
  unfold parseMPacket parseMBody at h
  obtain ⟨b, hb, h⟩ := except_bind_eq_ok.mp h
  cases h
  repeat' split at hb
  all_goals first
    | (obtain ⟨x, hx, hb⟩ := except_bind_eq_ok.mp hb; cases hb; exact hx)
    | (obtain ⟨x, hx, hb⟩ := except_bind_eq_ok.mp hb; cases hb)
    | cases hb

theorem body_seipd {r : RawPacket} {f : HeaderFormat} {c : Seipd} (h : parseMPacket accept r = .ok ⟨f, .seipd c⟩) : Seipd.parse r.content = .ok c := by
  unfold parseMPacket parseMBody at h
  obtain ⟨b, hb, h⟩ := except_bind_eq_ok.mp h
  cases h
  repeat' split at hb
  all_goals first
    | (obtain ⟨x, hx, hb⟩ := except_bind_eq_ok.mp hb; cases hb; exact hx)
    | (obtain ⟨x, hx, hb⟩ := except_bind_eq_ok.mp hb; cases hb)
    | cases hb

theorem body_pkesk {r : RawPacket} {f : HeaderFormat} {c : PkEsk} (h : parseMPacket accept r = .ok ⟨f, .pkesk c⟩) : parsePkEsk r.content = .ok c := by
  unfold parseMPacket parseMBody at h
  obtain ⟨b, hb, h⟩ := except_bind_eq_ok.mp h
  cases h
  repeat' split at hb
  all_goals first
    | (obtain ⟨x, hx, hb⟩ := except_bind_eq_ok.mp hb; cases hb; exact hx)
    | (obtain ⟨x, hx, hb⟩ := except_bind_eq_ok.mp hb; cases hb)
    | cases hb

theorem body_skesk {r : RawPacket} {f : HeaderFormat} {c : SkEsk} (h : parseMPacket accept r = .ok ⟨f, .skesk c⟩) : parseSkEsk r.content = .ok c := by
  unfold parseMPacket parseMBody at h
  obtain ⟨b, hb, h⟩ := except_bind_eq_ok.mp h
  cases h
  repeat' split at hb
  all_goals first
    | (obtain ⟨x, hx, hb⟩ := except_bind_eq_ok.mp hb; cases hb; exact hx)
    | (obtain ⟨x, hx, hb⟩ := except_bind_eq_ok.mp hb; cases hb)
    | cases hb

theorem body_sig {r : RawPacket} {f : HeaderFormat} {s : Sig} (h : parseMPacket accept r = .ok ⟨f, .sig s⟩) : parseSig r.content = .ok s := by
  unfold parseMPacket parseMBody at h
  obtain ⟨b, hb, h⟩ := except_bind_eq_ok.mp h
  cases h
  repeat' split at hb
  all_goals first
    | (obtain ⟨x, hx, hb⟩ := except_bind_eq_ok.mp hb; cases hb; exact hx)
    | (obtain ⟨x, hx, hb⟩ := except_bind_eq_ok.mp hb; cases hb)
    | cases hb

theorem literal_name_length {l : Literal} {c : Bytes} (h : l.content = .ok c) : l.filename.length < 256 := by
  unfold Literal.content at h
  split at h
  · cases h
  · obtain ⟨n, hb, _⟩ := except_bind_eq_ok.mp h
    unfold byteOf at hb
    split at hb
    · assumption
    · cases hb

/-- A literal message that was read and is written. -/
theorem literal_single {f : HeaderFormat} {l : Literal} {t : Nat} {r : RawPacket} (hr : parseMPacket accept r = .ok ⟨f, .literal l⟩) (ht : l.time = .int t)
    (hn : ∀ c ∈ l.filename, c.toNat < 128) {rs : List RawPacket}
    (hw : [literalPacket (l.dataFormat = 0x75 ∨ l.dataFormat = 0x74) l.data l.filename t].mapM (MPacket.raw fl o) = .ok rs) :
    SinglePacket (.literal (l.dataFormat = 0x75 ∨ l.dataFormat = 0x74) l.data l.filename t) := by
  obtain ⟨t', h1, h2, h3⟩ := literal_shape (body_literal hr)
  rw [ht] at h1
  cases h1
  have hlen : l.filename.length ≤ 255 := by
    rw [List.mapM_cons] at hw
    obtain ⟨x, hx, _⟩ := except_bind_eq_ok.mp hw
    unfold MPacket.raw at hx
    obtain ⟨c, hc, _⟩ := except_bind_eq_ok.mp hx
    have := literal_name_length (l := ⟨_, l.filename, _, l.data⟩) hc
    dsimp only at this
    omega
  rcases h3 with ⟨hf, s, hs⟩ | ⟨hf, b, hb⟩
  · rw [hs]; simp only [hf, decide_true]
    exact .text s _ t hn hlen h2
  · rw [hb]; simp only [hf, decide_false]
    exact .binary b _ t hn hlen h2

/-- A message of one packet that was read and is written. -/
theorem single_read {p : MPacket} {r : RawPacket} {m : Msg} (hr : parseMPacket accept r = .ok p) (hp : ¬ IsOps p) (hm : MessageOf [p] m) (hpass : Passable fl good m)
    {ps : List MPacket} {rs : List RawPacket} (hps : m.toPackets = .ok ps) (hw : ps.mapM (MPacket.raw fl o) = .ok rs) : SinglePacket m := by
  rw [← C37_recognition] at hm
  obtain ⟨f, b⟩ := p
  have hm' := hm
  rw [C37_recognition] at hm
  cases b with
  | literal l =>
    have hml : literalMessage l = .ok m := hm'
    unfold literalMessage at hml
    split at hml
    · rename_i t ht
      cases hml
      cases hps
      cases hpass with
      | literal hn => exact literal_single hr ht hn hw
    · cases hml
  | compressed c =>
    cases hm'
    have := body_compressed hr
    unfold Compressed.parse at this
    obtain ⟨a, _, this⟩ := except_bind_eq_ok.mp this
    cases this
    exact .compressed _ a.toNat_lt _
  | seipd q => cases hm'; cases hps
  | sed d => cases hm'
  | pkesk q => cases hm'
  | skesk q => cases hm'
  | onePass q => exact absurd ⟨_, rfl⟩ hp
  | sig q => cases hm'
  | other t => cases hm'

theorem keys_fit : ∀ {esks : List MPacket} {keys : List SessKey}, List.Forall₂ KeyOf esks keys →
    (∀ p ∈ esks, ∃ r, parseMPacket accept r = .ok p) → (∀ alg s2k esk, SessKey.sym alg s2k esk ∈ keys → WholeSpecifier s2k) → ∀ k ∈ keys, KeyFits k := by
  intro esks keys h
  induction h with
  | nil => intro _ _ k hk; cases hk
  | @cons p k ps ks hpk _ ih =>
    intro hr hs x hx
    rcases List.mem_cons.mp hx with rfl | hx
    · obtain ⟨r, hr⟩ := hr p (by simp)
      cases hpk with
      | pub f q => exact pkesk_shape (body_pkesk hr)
      | sym f q => exact skesk_shape (body_skesk hr) (hs _ _ _ List.mem_cons_self)
    · exact ih (fun p hp => hr p (by simp [hp])) (fun a b c h => hs a b c (by simp [h])) x hx

/-- Signatures that were read and are written: what they are read as the next time. -/
theorem sigs_again (hg : ∀ i, good i → LogRoom fl i ∧ (0 < i → fl i = Nat.log2 i)) : ∀ {sigs : List (HeaderFormat × Sig)} {ps : List MPacket} {rs : List RawPacket},
    (∀ s ∈ sigs, SigStorable fl good s.2) → (∀ s ∈ sigs, ∃ d, parseSig d = .ok s.2) → sigs.mapM sigPacket = .ok ps → ps.mapM (MPacket.raw fl o) = .ok rs →
    ∃ sigs', List.Forall₂ (fun s s' => s'.1 = s.1 ∧ SigOk fl s'.2 ∧ SameSig fl s.2 s'.2) sigs sigs' ∧
      ∃ ps', sigs'.mapM sigPacket = .ok ps' ∧ ps'.mapM (MPacket.raw fl o) = .ok rs := by
  intro sigs
  induction sigs with
  | nil => intro ps rs _ _ h1 h2; cases h1; cases h2; exact ⟨[], .nil, [], rfl, rfl⟩
  | cons s sigs ih =>
    intro ps rs hs hr h1 h2
    rw [List.mapM_cons] at h1
    obtain ⟨p, hp, h1⟩ := except_bind_eq_ok.mp h1
    obtain ⟨ps1, hps, h1⟩ := except_bind_eq_ok.mp h1
    cases h1
    rw [List.mapM_cons] at h2
    obtain ⟨r, hr1, h2⟩ := except_bind_eq_ok.mp h2
    obtain ⟨rs1, hrs, h2⟩ := except_bind_eq_ok.mp h2
    cases h2
    obtain ⟨sigs', i1, ps', i2, i3⟩ := ih (fun s h => hs s (by simp [h])) (fun s h => hr s (by simp [h])) hps hrs
    obtain ⟨f, s⟩ := s
    obtain ⟨d, hd⟩ := hr (f, s) (by simp)
    have hst := hs (f, s) (by simp)
    have hp' : p = ⟨f, .sig s⟩ := by cases hst; cases hp; rfl
    subst hp'
    unfold MPacket.raw at hr1
    obtain ⟨e, he, hr1⟩ := except_bind_eq_ok.mp hr1
    cases hr1
    obtain ⟨s', o1, o2, o3⟩ := sig_again hg hst hd he
    refine ⟨(f, s') :: sigs', .cons ⟨rfl, o1, o3⟩ i1, ⟨f, .sig s'⟩ :: ps', ?_, ?_⟩
    · have : sigPacket (f, s') = .ok ⟨f, .sig s'⟩ := by cases o1; rfl
      rw [List.mapM_cons, this, except_bind_ok, i2]; rfl
    · have hc : Sig.content fl s' = .ok e := by
        obtain ⟨_, _, _, _, _, _, _, _, _, _, _, _, h⟩ := o3
        rw [h]; exact he
      have : MPacket.raw fl o ⟨f, .sig s'⟩ = .ok ⟨f, 2, e⟩ := by
        unfold MPacket.raw
        show (do let c ← Sig.content fl s'; _) = _
        rw [hc]; rfl
      rw [List.mapM_cons, this, except_bind_ok, i3]; rfl

theorem onePasses_again {sigs sigs' : List (HeaderFormat × Sig)} (h : List.Forall₂ (fun s s' => s'.1 = s.1 ∧ SigOk fl s'.2 ∧ SameSig fl s.2 s'.2) sigs sigs') :
    onePassPackets sigs' = onePassPackets sigs ∧ ((∃ ps, onePassPackets sigs = .ok ps) → ∀ s ∈ sigs', ∀ v t p h hs us h2 vs, s.2 = .v4 v t p h hs us h2 vs →
      issuersOf (hs ++ us) ≠ []) := by
  induction h with
  | nil => exact ⟨rfl, fun _ s hs => by cases hs⟩
  | @cons s s' sigs sigs' h1 h2 ih =>
    obtain ⟨f, s⟩ := s
    obtain ⟨f', s'⟩ := s'
    obtain ⟨hf, _, t, p, hh, hs, us, left, vs, hs', us', hs1, hs2, hi, hc⟩ := h1
    dsimp only at hf hs1 hs2
    subst hf hs1 hs2
    have hlen : sigs'.isEmpty = sigs.isEmpty := by cases h2 <;> rfl
    have hone : onePassPacket sigs'.isEmpty (f', .v4 4 t p hh hs' us' left vs) = onePassPacket sigs.isEmpty (f', .v4 4 t p hh hs us left vs) := by
      rw [hlen]; simp only [onePassPacket, hi]
    refine ⟨by rw [onePassPackets, onePassPackets, hone, ih.1], ?_⟩
    rintro ⟨ps, hps⟩ x hx
    rw [onePassPackets] at hps
    obtain ⟨p1, hp1, hps⟩ := except_bind_eq_ok.mp hps
    obtain ⟨ps2, hps2, _⟩ := except_bind_eq_ok.mp hps
    rcases List.mem_cons.mp hx with rfl | hx
    · intro v t' p' h' a b c d he
      cases he
      rw [hi]
      intro h0
      simp only [onePassPacket, h0] at hp1
      cases hp1
    · exact ih.2 ⟨_, hps2⟩ x hx

theorem sigTail_mem {post : List MPacket} {sigs : List (HeaderFormat × Sig)} (h : SigTail post sigs) : ∀ s ∈ sigs, (⟨s.1, .sig s.2⟩ : MPacket) ∈ post := by
  induction h with
  | nil => intro s hs; cases hs
  | ops _ _ ih => intro s hs; exact List.mem_cons_of_mem _ (ih s hs)
  | @sig f s ps ss _ ih =>
    intro x hx
    rcases List.mem_cons.mp hx with rfl | hx
    · exact List.mem_cons_self
    · exact List.mem_cons_of_mem _ (ih x hx)

/-- What a message that was read and is written will be read as. -/
theorem read_again (hg : ∀ i, good i → LogRoom fl i ∧ (0 < i → fl i = Nat.log2 i)) {data : Bytes} {m : Msg} (hread : readMessage accept data = .ok m)
    (hpass : Passable fl good m) {ps : List MPacket} {rs : List RawPacket} (hps : m.toPackets = .ok ps) (hrs : ps.mapM (MPacket.raw fl o) = .ok rs) :
    ∃ m', Sendable fl m' ∧ SameMessage fl m m' ∧ ∃ ps', m'.toPackets = .ok ps' ∧ ps'.mapM (MPacket.raw fl o) = .ok rs := by
  unfold readMessage at hread
  obtain ⟨rs0, _, hread⟩ := except_bind_eq_ok.mp hread
  obtain ⟨ps0, h2, hread⟩ := except_bind_eq_ok.mp hread
  have hb : ∀ p ∈ ps0, ∃ r, parseMPacket accept r = .ok p := by
    intro p hp
    obtain ⟨r, _, hr⟩ := forall₂_mem_right (mapM_ok_forall₂ h2) p hp
    exact ⟨r, hr⟩
  clear h2
  have whole : ∀ m : Msg, SinglePacket m → m.toPackets = .ok ps → ∃ m', Sendable fl m' ∧ m' = m ∧ ∃ ps', m'.toPackets = .ok ps' ∧ ps'.mapM (MPacket.raw fl o) = .ok rs :=
    fun m h hp => ⟨m, .single m h, rfl, ps, hp, hrs⟩
  rw [C37_recognition] at hread
  cases hread with
  | literal f l t rest ht =>
    obtain ⟨r, hr⟩ := hb _ List.mem_cons_self
    have hps' := hps
    cases hps'
    cases hpass with
    | literal hn => exact whole _ (literal_single hr ht hn hrs) hps
  | compressed f c rest =>
    obtain ⟨r, hr⟩ := hb _ List.mem_cons_self
    have := body_compressed hr
    unfold Compressed.parse at this
    obtain ⟨a, _, this⟩ := except_bind_eq_ok.mp this
    cases this
    exact whole _ (.compressed _ a.toNat_lt _) hps
  | encrypted esks keys f p rest hk hne =>
    obtain ⟨r, hr⟩ := hb ⟨f, .seipd p⟩ (by simp)
    have := body_seipd hr
    unfold Seipd.parse at this
    obtain ⟨a, _, this⟩ := except_bind_eq_ok.mp this
    cases this
    cases hpass with
    | encrypted hw =>
      exact ⟨_, .encrypted keys hne (keys_fit hk (fun p hp => hb p (by simp [hp])) hw) _ a.toNat_lt _, rfl, ps, hps, hrs⟩
  | encryptedDefault f p rest => cases hps
  | signedNothing hne h => cases hpass
  | signed pre post p m0 sigs hne hpre hp hm hs =>
    cases hpass with
    | signed hne' hst hpm =>
      have hps' := hps
      rw [Msg.toPackets, if_pos rfl] at hps'
      obtain ⟨os, ho, hps'⟩ := except_bind_eq_ok.mp hps'
      dsimp only at hps'
      obtain ⟨ms, hms, hps'⟩ := except_bind_eq_ok.mp hps'
      obtain ⟨ss, hss, hps'⟩ := except_bind_eq_ok.mp hps'
      cases hps'
      rw [List.mapM_append] at hrs
      obtain ⟨r1, hr1, hrs⟩ := except_bind_eq_ok.mp hrs
      obtain ⟨r2, hr2, hrs⟩ := except_bind_eq_ok.mp hrs
      cases hrs
      have hr1' := hr1
      rw [List.mapM_append] at hr1
      obtain ⟨r3, hr3, hr1⟩ := except_bind_eq_ok.mp hr1
      obtain ⟨r4, hr4, _⟩ := except_bind_eq_ok.mp hr1
      obtain ⟨r, hr⟩ := hb p (by simp)
      have hsingle := single_read hr hp hm hpm hms hr4
      obtain ⟨sigs', q1, ss', q2, q3⟩ := sigs_again (o := o) hg hst (fun s hs' => by
        obtain ⟨r, hr⟩ := hb ⟨s.1, .sig s.2⟩ (by
          have := sigTail_mem hs s hs'
          simp [this])
        exact ⟨_, body_sig hr⟩) hss hr2
      obtain ⟨q4, q5⟩ := onePasses_again q1
      have hnil : sigs' ≠ [] := by
        rintro rfl
        cases q1
        exact hne' rfl
      refine ⟨.signed sigs' (some m0) true, .signed m0 hsingle sigs' hnil (fun s hs => ?_) (q5 ⟨_, ho⟩), ⟨rfl, rfl, ?_⟩, os ++ ms ++ ss', ?_, ?_⟩
      · obtain ⟨_, _, h⟩ := forall₂_mem_right q1 s hs
        exact h.2.1
      · exact q1.imp fun s s' h => ⟨h.1, by obtain ⟨_, _, _, _, _, _, _, _, _, _, _, _, h⟩ := h.2.2; exact h⟩
      · rw [Msg.toPackets, if_pos rfl, q4, ho, except_bind_ok]
        dsimp only
        rw [hms, except_bind_ok, q2]; rfl
      · rw [List.mapM_append, hr1', except_bind_ok, q3]; rfl

/-- C123 (part that holds): take any octets that are read as a message, and write the message.  What is written is read as the same message, and written with the same
octets.  Nothing is assumed of the octets that came in: packets behind the message, other header formats, lengths in other forms or in chunks, loosely written integers
may all be lost the first time, but not later. -/
theorem C123_message_partial (fl : Nat → Nat) (hl : LogOnCounts fl) (good : Nat → Prop) (hg : ∀ i, good i → LogRoom fl i ∧ (0 < i → fl i = Nat.log2 i))
    (o : Nat → Py Bytes) (accept : RawPacket → Py Unit) (data out : Bytes) (m : Msg) (ps : List MPacket)
    (hread : readMessage accept data = .ok m) (hpass : Passable fl good m) (hps : m.toPackets = .ok ps) (hout : m.bytes fl o = .ok out)
    (hx : ∀ p ∈ ps, ∀ r, p.raw fl o = .ok r → Expressible r) :
    ∃ m', readMessage accept out = .ok m' ∧ SameMessage fl m m' ∧ m'.bytes fl o = .ok out := by
  unfold Msg.bytes at hout
  rw [hps, except_bind_ok] at hout
  obtain ⟨rs, hrs, hout⟩ := except_bind_eq_ok.mp hout
  obtain ⟨m', h1, h2, ps', h3, h4⟩ := read_again hg hread hpass hps hrs
  obtain ⟨ps2, rs2, k1, k2, k3⟩ := C66_message_roundtrip_partial fl hl o accept m' h1
  rw [h3] at k1
  cases k1
  rw [h4] at k2
  cases k2
  obtain ⟨w, w1, w2⟩ := k3 fun r hr => by
    obtain ⟨p, hp, hpr⟩ := forall₂_mem_right (mapM_ok_forall₂ hrs) r hr
    exact hx p hp r hpr
  have hw : m'.bytes fl o = .ok out := by
    unfold Msg.bytes
    rw [h3, except_bind_ok, h4, except_bind_ok, hout]
  rw [hw] at w1
  cases w1
  exact ⟨m', w2, h2, hw⟩

/-! ### What is not passed on unchanged -/

/-- C123 fails for signed messages that come without their signatures: they are read as signed messages, and passed on as unsigned ones. -/
theorem C123_signatures_missing_refuted (pre : List MPacket) (p : MPacket) (m : Msg) (hne : pre ≠ []) (hpre : ∀ q ∈ pre, IsOps q) (hp : ¬ IsOps p)
    (hm : openMessage [p] = .ok m) :
    ∃ s, openMessage (pre ++ [p]) = .ok s ∧ s = .signed [] (some m) true ∧ s.toPackets = m.toPackets := by
  refine ⟨_, (C37_recognition _ _).mpr (.signed pre [] p m [] hne hpre hp ((C37_recognition _ _).mp hm) .nil), rfl, ?_⟩
  rw [Msg.toPackets]
  show (do let ms ← m.toPackets; pure ([] ++ ms ++ [])) = _
  cases m.toPackets with
  | error e => rfl
  | ok ms => show Except.ok ([] ++ ms ++ []) = _; simp

example := C123_signatures_missing_refuted [⟨.new, .onePass ⟨3, 0, 8, 1, "0123456789ABCDEF".toList, 1⟩⟩] ⟨.new, .literal ⟨0x62, [], .int 5, .octets [1, 2]⟩⟩ _ (by simp)
  (by simp [IsOps]) (by simp [IsOps]) rfl

/-- C123 fails for file names that are not ASCII: such a message is read, but what is written for it is never read as the same message. -/
theorem C123_name_refuted (fl : Nat → Nat) (o : Nat → Py Bytes) (accept : RawPacket → Py Unit) (name : Str) (d t : Bytes) (hn : (utf8Encode name).length ≠ name.length)
    (hl : (utf8Encode name).length ≤ 255) (ht : t.length = 4) (hd : d.length < 2 ^ 31) :
    ∃ data m, readMessage accept data = .ok m ∧ m = .literal false (.octets d) name (beNat t) ∧
      ∃ out, m.bytes fl o = .ok out ∧ ∀ m', readMessage accept out = .ok m' → ¬ SameMessage fl m m' := by
  have hle : name.length ≤ (utf8Encode name).length := by
    clear hn hl
    induction name with
    | nil => simp
    | cons c cs ih =>
      have := (utf8Char_length c).1
      simp only [utf8Encode, List.flatMap_cons, List.length_append, List.length_cons] at ih ⊢
      omega
  have frame : ∀ c : Bytes, 1 ≤ c.length → c.length < 2 ^ 32 → ∃ e, joinPackets [⟨.new, 11, c⟩] = .ok e ∧ parseBinaryPacketData e = .ok [⟨.new, 11, c⟩] := by
    intro c h1 h2
    obtain ⟨es, k1, k2⟩ := C10_parse_concat_partial [⟨.new, 11, c⟩] (by
      intro r hr
      obtain rfl := List.mem_singleton.mp hr
      exact .inl ⟨rfl, by show 11 < 64; decide, h1, by show c.length ≤ _; omega⟩)
    exact ⟨es.flatten, by simp only [joinPackets, k1, except_bind_ok, except_pure], k2⟩
  have open1 : ∀ l tt, l.time = .int tt → openMessage [⟨.new, .literal l⟩] = .ok (.literal (l.dataFormat = 0x75 ∨ l.dataFormat = 0x74) l.data l.filename tt) := by
    intro l tt h
    exact (C37_recognition _ _).mpr (.literal .new l tt [] h)
  have hb : (UInt8.ofNat (utf8Encode name).length).toNat = (utf8Encode name).length := toNat_ofNat_lt (by omega)
  have h0 := (C87_literal 0x62 (UInt8.ofNat (utf8Encode name).length) name t d hb.symm ht).1 (by decide) (by decide)
  obtain ⟨e, e1, e2⟩ := frame (0x62 :: UInt8.ofNat (utf8Encode name).length :: (utf8Encode name ++ t ++ d)) (by simp) (by
    simp only [List.length_cons, List.length_append]; omega)
  refine ⟨e, .literal false (.octets d) name (beNat t), ?_, rfl, ?_⟩
  · have := (parseMBody_of accept .new _).2.2.2.2.2.1 _ h0
    unfold readMessage
    rw [e2, except_bind_ok]
    show (do let ps ← [_].mapM (parseMPacket accept); openMessage ps) = _
    rw [List.mapM_cons]
    unfold parseMPacket
    rw [this]
    exact open1 ⟨0x62, name, .int (beNat t), .octets d⟩ (beNat t) rfl
  · obtain ⟨w, w1, w2⟩ := C54_non_ascii_name_refuted name (by omega) hn (beNat t) d
    have hw : 1 ≤ w.length ∧ w.length < 2 ^ 32 := by
      unfold Literal.content at w1
      rw [if_neg (by show ¬¬ ((0x62 : UInt8) ∈ _); decide)] at w1
      obtain ⟨n, _, w1⟩ := except_bind_eq_ok.mp w1
      cases w1
      simp only [List.length_cons, List.length_append, intTo4byte_length]
      omega
    obtain ⟨out, f1, f2⟩ := frame w hw.1 hw.2
    refine ⟨out, ?_, ?_⟩
    · have : MPacket.raw fl o (literalPacket false (.octets d) name (beNat t)) = .ok ⟨.new, 11, w⟩ := by
        unfold MPacket.raw
        have : (literalPacket false (.octets d) name (beNat t)).body.content fl o = .ok w := w1
        rw [this]; rfl
      unfold Msg.bytes
      show (do let rs ← [literalPacket false (.octets d) name (beNat t)].mapM (MPacket.raw fl o); joinPackets rs) = _
      rw [List.mapM_cons, this]
      exact f1
    · intro m' hm' hs
      unfold readMessage at hm'
      rw [f2, except_bind_ok] at hm'
      obtain ⟨ps, hps, hm'⟩ := except_bind_eq_ok.mp hm'
      rw [List.mapM_cons] at hps
      obtain ⟨p, hp, hps⟩ := except_bind_eq_ok.mp hps
      cases hps
      have hp' := hp
      unfold parseMPacket at hp
      obtain ⟨b, hb', hp⟩ := except_bind_eq_ok.mp hp
      cases hp
      have : ∃ l, Literal.parse w = .ok l ∧ b = .literal l := by
        have hdef : parseMBody accept ⟨.new, 11, w⟩ = (do let x ← Literal.parse w; return .literal x) := by simp [parseMBody]
        rw [hdef] at hb'
        obtain ⟨l, hl', hb'⟩ := except_bind_eq_ok.mp hb'
        cases hb'
        exact ⟨l, hl', rfl⟩
      obtain ⟨l, hl', rfl⟩ := this
      obtain ⟨tt, ht', _⟩ := literal_shape hl'
      have hm2 : openMessage [⟨.new, .literal l⟩] = .ok m' := hm'
      rw [open1 l tt ht'] at hm2
      cases hm2
      have hs' : Msg.literal (l.dataFormat = 0x75 ∨ l.dataFormat = 0x74) l.data l.filename tt = .literal false (.octets d) name (beNat t) := hs
      injection hs' with _ h2
      exact w2 l hl' h2

example (accept : RawPacket → Py Unit) := C123_name_refuted Nat.log2 (fun _ => .ok []) accept "é".toList [104, 105] [0, 0, 0, 5] (by decide +kernel) (by decide +kernel) rfl
  (by decide)

/-! ### Examples -/

/-- A signed message: one-pass packet with an old header, text in Latin-1, and the untidy signature of C122. -/
def exPassLit : Bytes := 0x74 :: 1 :: (utf8Encode ['a'] ++ [0, 0, 0, 5] ++ [0xe9, 104])
def exPassOne : Bytes := [3, 0x13, 8, 1, 1, 2, 3, 4, 5, 6, 7, 0xab, 0]
def exPass : Bytes := exPacket .old 4 13 exPassOne ++ exPacket .new 11 9 exPassLit ++ exPacket .new 2 47 exRaw

def exPassMsg : Msg := .signed [(.new, exUntidySig)] (some (.literal true (.text [Char.ofNat 0xe9, 'h']) ['a'] 5)) true

theorem exPass_read (accept : RawPacket → Py Unit) : readMessage accept exPass = .ok exPassMsg := by
  have h1 : parseBinaryPacketData exPass = .ok [⟨.old, 4, exPassOne⟩, ⟨.new, 11, exPassLit⟩, ⟨.new, 2, exRaw⟩] := by decide +kernel
  have a1 : ∃ q, parseMPacket accept ⟨.old, 4, exPassOne⟩ = .ok ⟨.old, .onePass q⟩ := ⟨_, rfl⟩
  have a2 : parseMPacket accept ⟨.new, 11, exPassLit⟩ = .ok ⟨.new, .literal ⟨0x74, ['a'], .int 5, .text [Char.ofNat 0xe9, 'h']⟩⟩ := by
    have := (C87_literal 0x74 1 ['a'] [0, 0, 0, 5] [0xe9, 104] rfl rfl).2.1
    have h := (parseMBody_of accept .new _).2.2.2.2.2.1 _ this
    unfold parseMPacket exPassLit
    rw [h]; rfl
  have a3 : parseMPacket accept ⟨.new, 2, exRaw⟩ = .ok ⟨.new, .sig exUntidySig⟩ := by
    have h := (parseMBody_of accept .new _).2.1 _ exUntidy_sig
    unfold parseMPacket
    rw [h]; rfl
  obtain ⟨q, a1⟩ := a1
  unfold readMessage
  rw [h1, except_bind_ok, List.mapM_cons, List.mapM_cons, List.mapM_cons, a1, a2, a3]
  rfl

theorem exPass_ok : Passable Nat.log2 (· < 4096) exPassMsg :=
  .signed (by simp) (by intro s hs; obtain rfl := List.mem_singleton.mp hs; exact exUntidySig_ok) (.literal (by decide))

/-- Its octets change the first time, and then no more; it stays a signed message with that text. -/
example (accept : RawPacket → Py Unit) (o : Nat → Py Bytes) : ∃ out, exPassMsg.bytes Nat.log2 o = .ok out ∧ out ≠ exPass ∧
    ∃ m', readMessage accept out = .ok m' ∧ SameMessage Nat.log2 exPassMsg m' ∧ m'.bytes Nat.log2 o = .ok out := by
  refine ⟨_, rfl, by decide +kernel, ?_⟩
  refine C123_message_partial Nat.log2 (fun _ _ _ => rfl) (· < 4096) exGood o accept exPass _ exPassMsg
    [⟨.new, .onePass ⟨3, 0x13, 8, 1, "01020304050607AB".toList, 0⟩⟩, literalPacket true (.text [Char.ofNat 0xe9, 'h']) ['a'] 5, ⟨.new, .sig exUntidySig⟩]
    (exPass_read accept) exPass_ok rfl rfl ?_
  intro p hp r hr
  simp only [List.mem_cons, List.not_mem_nil, or_false] at hp
  rcases hp with rfl | rfl | rfl <;> cases hr <;> exact .inl ⟨rfl, by decide, by decide +kernel, by decide +kernel⟩

end Pgp.Props
