import Verif.Spec.SecretFile
import Verif.Props.KeyFile
import Verif.Props.PacketWire
/-
Property theorems C91: the octets of a received secret key, and of the public key made from it (C71).
-/
namespace Pgp.Props
open Spec

/-! ### Reading and writing -/

theorem secretWire_stands {magic : Bytes → Str} {fl : Nat → Nat} (hl : LogOnCounts fl) {good : Nat → Prop} (hg : GoodInts fl good) {c : Bytes}
    (h : SecretWire good c) (sub : Bool) :
    ∃ k p, Stands magic fl good (if sub then 7 else 5) c (.key true sub k (some p)) ∧ 4 ≤ k.version := by
  obtain ⟨pub, usage, sym, sp, iv, enc, hk, hu, hw, hb, he, rfl⟩ := h
  obtain ⟨k, h1, h2, h3, h4⟩ := keyWire_parse hg hk
  have h1 := h1 (usage :: sym :: sp.octets ++ iv ++ enc)
  generalize hdat : pub ++ (usage :: sym :: sp.octets ++ iv ++ enc) = data at h1 ⊢
  have d0 : data.drop pub.length = usage :: sym :: (sp.octets ++ (iv ++ enc)) := by rw [← hdat, List.drop_left]; simp
  have d1 := drop_succ_of_drop d0
  have d2 := drop_succ_of_drop d1
  have d3 := drop_add_of_drop d2
  have d4 := drop_add_of_drop d3
  have hb' : blockLengths sym.toNat = some iv.length := by rw [blockLengths_eq]; exact hb
  have hu0 : ¬usage = 0 := by rcases hu with rfl | rfl <;> decide
  have hiv : slice data (pub.length + 1 + 1 + sp.octets.length) (pub.length + 1 + 1 + sp.octets.length + iv.length) = iv := slice_of_drop d3 rfl
  have hp : parseSecKey data = .ok ⟨k, specObj sym.toNat sp, sym.toNat, iv, enc, usage = 255, usage = 254⟩ := by
    simp only [parseSecKey, h1, except_bind_ok, parseSecretPart, idx_of_drop d0, idx_of_drop d1, if_neg hu0, if_pos hu, spec_read sp hw sym.toNat d2, secretTail, hb', hiv, d4]
  refine ⟨k, ⟨specObj sym.toNat sp, sym.toNat, iv, enc, usage = 255, usage = 254⟩, ⟨fun f => ?_, ?_, by cases sub <;> rfl, h3, pub, h2, hk⟩, h4⟩
  · cases sub <;> simp [readBody, hp]
  · have hiv' : (if sym.toNat ≠ 0 then iv else []) = iv := by
      split
      · rfl
      · rename_i h0
        rw [Classical.not_not.mp h0] at hb
        cases iv with
        | nil => rfl
        | cons x l => simp [blockOctets] at hb
    have hus : (if (decide (usage = 255)) = true then (255 : UInt8) else 254) = usage := by rcases hu with rfl | rfl <;> rfl
    simp only [KBody.content, SecKey.content, SecKey.protection, h2, byteOf_toNat, spec_written fl hl, except_bind_ok, except_pure, if_pos he, hiv', hus]
    rw [← hdat]
    simp

theorem secret_file_rep {magic : Bytes → Str} {F : HeaderFormat → Prop} {fl : Nat → Nat} (hl : LogOnCounts fl) {good : Nat → Prop} (hg : GoodInts fl good)
    {b : Bytes} (h : SecretKeyFile magic F good b) : ∃ ps, Rep magic F fl good b ps ∧ KeySequence true (ps.map KPacket.body) :=
  file_rep_of hg true (fun isSub c hc => by
    obtain ⟨k, p, h1, h2⟩ := secretWire_stands (magic := magic) hl hg hc isSub
    exact ⟨k, some p, h1, h2⟩) h

/-- C91 (part that holds): a protected secret key with any number of signatures, user ids, images and subkeys (packets as in C83; each secret key with its own
cipher, specifier and initial vector) is read, and the key read, turned into packets, gives exactly the octets that came in. -/
theorem C91_import_export_partial (magic : Bytes → Str) (fl : Nat → Nat) (hl : LogOnCounts fl) (good : Nat → Prop)
    (hg : ∀ i, good i → LogRoom fl i ∧ (0 < i → fl i = Nat.log2 i)) (F : HeaderFormat → Prop) (data : Bytes)
    (h : SecretKeyFile magic F good data) : ∃ k, readKey magic data = .ok k ∧ k.octets fl none = .ok data := by
  obtain ⟨ps, h1, h2⟩ := secret_file_rep hl hg h
  obtain ⟨k, h3, _, h4⟩ := rep_read h1 h2
  exact ⟨k, h3, h4 none fun f _ => rfl⟩

/-- C91 (part that holds): the same for `serialize_key` with a header format, if that is the format of all packets in the data. -/
theorem C91_serialize_key_partial (magic : Bytes → Str) (fl : Nat → Nat) (hl : LogOnCounts fl) (good : Nat → Prop)
    (hg : ∀ i, good i → LogRoom fl i ∧ (0 < i → fl i = Nat.log2 i)) (f : HeaderFormat) (data : Bytes)
    (h : SecretKeyFile magic (· = f) good data) :
    ∃ k, readKey magic data = .ok k ∧ serializeKey fl (some f) k = .ok data ∧ (f = .old → serializeKey fl none k = .ok data) := by
  obtain ⟨ps, h1, h2⟩ := secret_file_rep hl hg h
  obtain ⟨k, h3, _, h4⟩ := rep_read h1 h2
  have := h4 (some f) fun f' hf => by rw [hf]; rfl
  exact ⟨k, h3, this, by rintro rfl; exact this⟩

/-! ### The public half -/

/-- What becomes of a packet. -/
def KBody.toPublic : KBody → KBody
  | .key _ sub k _ => .key false sub k none
  | b => b

def KPacket.toPublic (p : KPacket) : KPacket := ⟨p.fmt, KBody.toPublic p.body⟩

theorem elem_public (e : KElem) (p : KPacket) (h : e.toPacket = .ok p) : e.toPublic.toPacket = .ok (KPacket.toPublic p) := by
  obtain ⟨f, it⟩ := e
  cases it with
  | key => cases h; rfl
  | sig s => cases s <;> cases h; rfl
  | uid => cases h; rfl
  | attr items =>
    simp only [KElem.toPacket, KElem.toPublic] at h ⊢
    split at h <;> cases h
    rfl

/-- An element that is not a key. -/
def NoKey (e : KElem) : Prop := e.toPublic = e

theorem nokey_packets : ∀ (l : List KElem) (ps : List KPacket), (∀ e ∈ l, NoKey e) → l.mapM KElem.toPacket = .ok ps → ps.map KPacket.toPublic = ps := by
  intro l
  induction l with
  | nil => intro ps _ h; cases h; rfl
  | cons e l ih =>
    intro ps hn h
    rw [List.mapM_cons] at h
    obtain ⟨p, hp, h⟩ := except_bind_eq_ok.mp h
    obtain ⟨ps', hps, h⟩ := except_bind_eq_ok.mp h
    cases h
    have h1 := elem_public e p hp
    rw [hn e List.mem_cons_self, hp] at h1
    rw [List.map_cons, ih ps' (fun x hx => hn x (List.mem_cons_of_mem _ hx)) hps, ← Except.ok.inj h1]

theorem takeSigs_nokey : ∀ ps : List KPacket, ∀ e ∈ (takeSigs ps).1, NoKey e := by
  intro ps
  induction ps with
  | nil => intro e he; simp [takeSigs] at he
  | cons p ps ih =>
    intro e he
    obtain ⟨f, b⟩ := p
    cases b <;> simp only [takeSigs, List.not_mem_nil] at he
    rcases List.mem_cons.mp he with rfl | he
    · rfl
    · exact ih e he

theorem takeUids_nokey : ∀ (n : Nat) (ps : List KPacket), ∀ g ∈ (takeUids n ps).1, NoKey g.1 ∧ ∀ e ∈ g.2, NoKey e := by
  intro n
  induction n with
  | zero => intro ps g hg; simp [takeUids] at hg
  | succ n ih =>
    intro ps g hg
    match ps with
    | [] => simp [takeUids] at hg
    | ⟨f, b⟩ :: ps =>
      cases b <;> simp only [takeUids, List.not_mem_nil] at hg
      rcases List.mem_cons.mp hg with rfl | hg
      · exact ⟨rfl, takeSigs_nokey ps⟩
      · exact ih _ g hg

theorem takeAttrs_nokey (magic : Bytes → Str) : ∀ (n : Nat) (ps : List KPacket) gs rest, takeAttrs magic n ps = .ok (gs, rest) →
    ∀ g ∈ gs, NoKey g.1 ∧ ∀ e ∈ g.2, NoKey e := by
  intro n
  induction n with
  | zero => intro ps gs rest h g hg; cases h; cases hg
  | succ n ih =>
    intro ps gs rest h g hg
    match ps with
    | [] => cases h; cases hg
    | ⟨f, b⟩ :: ps =>
      cases b with
      | attr as =>
        rw [takeAttrs] at h
        obtain ⟨items, _, h⟩ := except_bind_eq_ok.mp h
        obtain ⟨⟨gs', r⟩, h2, h⟩ := except_bind_eq_ok.mp h
        cases h
        rcases List.mem_cons.mp hg with rfl | hg
        · exact ⟨rfl, takeSigs_nokey ps⟩
        · exact ih _ _ _ h2 g hg
      | _ => cases h; cases hg

theorem takeSubs_nokey : ∀ (n : Nat) (ps : List KPacket), ∀ g ∈ (takeSubs n ps).1, ∀ e ∈ g.2, NoKey e := by
  intro n
  induction n with
  | zero => intro ps g hg; simp [takeSubs] at hg
  | succ n ih =>
    intro ps g hg
    match ps with
    | [] => simp [takeSubs] at hg
    | ⟨f, b⟩ :: ps =>
      cases b with
      | key sec sub k priv =>
        cases sub
        · simp [takeSubs] at hg
        · simp only [takeSubs] at hg
          rcases List.mem_cons.mp hg with rfl | hg
          · exact takeSigs_nokey ps
          · exact ih _ g hg
      | _ => simp [takeSubs] at hg

theorem group_public (g : KGroup) (ps : List KPacket) (hn : ∀ e ∈ g.2, NoKey e) (h : groupPackets g = .ok ps) :
    groupPackets (g.1.toPublic, g.2) = .ok (ps.map KPacket.toPublic) := by
  unfold groupPackets at h ⊢
  obtain ⟨p, hp, h⟩ := except_bind_eq_ok.mp h
  obtain ⟨ss, hs, h⟩ := except_bind_eq_ok.mp h
  cases h
  have := elem_public g.1 p hp
  have hss := nokey_packets g.2 ss hn hs
  simp only [this, hs, except_bind_ok, except_pure, List.map_cons, hss]

theorem groups_public : ∀ (gs : List KGroup) (pss : List (List KPacket)), (∀ g ∈ gs, ∀ e ∈ g.2, NoKey e) → gs.mapM groupPackets = .ok pss →
    (gs.map fun g => (g.1.toPublic, g.2)).mapM groupPackets = .ok (pss.map (List.map KPacket.toPublic)) := by
  intro gs
  induction gs with
  | nil => intro pss _ h; cases h; rfl
  | cons g gs ih =>
    intro pss hn h
    rw [List.mapM_cons] at h
    obtain ⟨p, hp, h⟩ := except_bind_eq_ok.mp h
    obtain ⟨ps', hps, h⟩ := except_bind_eq_ok.mp h
    cases h
    rw [List.map_cons, List.mapM_cons, group_public g p (hn g List.mem_cons_self) hp, ih ps' (fun x hx => hn x (List.mem_cons_of_mem _ hx)) hps]
    rfl

theorem map_id_of {α : Type} {f : α → α} : ∀ {l : List α}, (∀ x ∈ l, f x = x) → l.map f = l
  | [], _ => rfl
  | x :: l, h => by rw [List.map_cons, h x List.mem_cons_self, map_id_of fun y hy => h y (List.mem_cons_of_mem _ hy)]

/-- The packets of the public key are the public halves of the packets of the secret key. -/
theorem toPublic_packets (magic : Bytes → Str) (secret : Bool) (packets ps : List KPacket) (k k' : TKey) (expires : Nat → Py Unit)
    (hk : TKey.fromPackets magic secret packets = .ok k) (h : k.toPackets = .ok ps) (h' : k.toPublic expires = .ok k') :
    k'.toPackets = .ok (ps.map KPacket.toPublic) := by
  unfold TKey.toPublic at h'
  obtain ⟨_, _, h'⟩ := except_bind_eq_ok.mp h'
  obtain ⟨_, _, h'⟩ := except_bind_eq_ok.mp h'
  cases h'
  unfold TKey.fromPackets at hk
  obtain ⟨_, _, hk⟩ := except_bind_eq_ok.mp hk
  split at hk
  · rename_i f sec sub key priv rest _ _
    obtain ⟨⟨attrs, r3⟩, ha, hk⟩ := except_bind_eq_ok.mp hk
    cases hk
    unfold TKey.toPackets at h ⊢
    obtain ⟨a, ha', h⟩ := except_bind_eq_ok.mp h
    obtain ⟨b, hb, h⟩ := except_bind_eq_ok.mp h
    obtain ⟨c, hc, h⟩ := except_bind_eq_ok.mp h
    obtain ⟨d, hd, h⟩ := except_bind_eq_ok.mp h
    cases h
    have hu := takeUids_nokey (takeSigs rest).2.length (takeSigs rest).2
    have hat := takeAttrs_nokey magic _ _ _ _ ha
    have same : ∀ (gs : List KGroup) pss, (∀ g ∈ gs, NoKey g.1 ∧ ∀ e ∈ g.2, NoKey e) → gs.mapM groupPackets = .ok pss →
        pss.map (List.map KPacket.toPublic) = pss := by
      intro gs pss hn hm
      have h1 := groups_public gs pss (fun g hg => (hn g hg).2) hm
      rw [map_id_of (fun g hg => by rw [(hn g hg).1]), hm] at h1
      exact (Except.ok.inj h1).symm
    have e1 := group_public _ a (takeSigs_nokey rest) ha'
    have e2 := groups_public _ d (takeSubs_nokey r3.length r3) hd
    simp only [e1, hb, hc, e2, except_bind_ok, except_pure, List.map_append, List.map_flatten, same _ b hu hb, same _ c hat hc]
  · cases hk

/-- One packet. -/
theorem packet_half {magic : Bytes → Str} {F : HeaderFormat → Prop} {fl : Nat → Nat} {good : Nat → Prop} (hg : GoodInts fl good) {r : RawPacket} {p : KPacket}
    {e : Bytes} (h : Holds magic F fl good r p) (he : Packet.toBytes 1 r = .ok e) (hp : ∀ sub k priv, p.body ≠ .key false sub k priv) :
    ∃ r' e', Holds magic F fl good r' (KPacket.toPublic p) ∧ Packet.toBytes 1 r' = .ok e' ∧ PacketHalf good e e' := by
  obtain ⟨h1, h2, h3, h4, h5, h6⟩ := h
  obtain ⟨hd, hh, rfl⟩ := (C83_packet_octets_iff r h5 e).mp he
  obtain ⟨f, body⟩ := p
  unfold KPacket.raw at h2
  obtain ⟨c, hc, h2⟩ := except_bind_eq_ok.mp h2
  cases h2
  have same : (∀ sec sub k priv, body ≠ .key sec sub k priv) → (body.type ≠ 5 ∧ body.type ≠ 7) →
      ∃ r' e', Holds magic F fl good r' (KPacket.toPublic ⟨f, body⟩) ∧ Packet.toBytes 1 r' = .ok e' ∧ PacketHalf good (hd ++ c) e' := by
    intro hk ht
    have hid : KPacket.toPublic ⟨f, body⟩ = ⟨f, body⟩ := by
      cases body with
      | key sec sub k priv => exact absurd rfl (hk sec sub k priv)
      | _ => rfl
    rw [hid]
    exact ⟨⟨f, body.type, c⟩, hd ++ c, ⟨h1, by simp only [KPacket.raw, hc, except_bind_ok, except_pure]; rfl, h3, h4, h5, h6⟩, he, .other f _ hd c ht.1 ht.2 hh⟩
  cases body with
  | key sec sub k priv =>
    cases sec with
    | false => exact absurd rfl (hp sub k priv)
    | true =>
      obtain ⟨pub, hk1, hk2⟩ := h6
      have hcut : ∃ rest, c = pub ++ rest := by
        cases priv with
        | none => exact ⟨[], by simp only [KBody.content, hk1] at hc; cases hc; simp⟩
        | some q =>
          simp only [KBody.content, SecKey.content, hk1, except_bind_ok] at hc
          obtain ⟨x, _, hc⟩ := except_bind_eq_ok.mp hc
          split at hc
          · cases hc; exact ⟨x ++ q.enc, by simp⟩
          · cases hc
      obtain ⟨rest, rfl⟩ := hcut
      obtain ⟨k2, hp1, hp2, hp3, _⟩ := keyWire_parse hg hk2
      have hpos : 0 < pub.length := by
        obtain ⟨v, a, t, m, _, _, _, _, rfl⟩ := hk2
        simp
      have hkk : k = k2 := by
        unfold readPacket at h1
        obtain ⟨b, hb, h1⟩ := except_bind_eq_ok.mp h1
        cases h1
        have hty : (KBody.key true sub k priv).type = 5 ∨ (KBody.key true sub k priv).type = 7 := by cases sub <;> simp [KBody.type]
        unfold readBody at hb
        rw [dif_neg (by cases sub <;> simp [KBody.type]), dif_pos hty] at hb
        obtain ⟨sk, hs, hb⟩ := except_bind_eq_ok.mp hb
        obtain ⟨_, off, pk, _, hpk, hpe, _⟩ := C50_parsed_shape _ sk hs
        simp only [hp1 rest] at hpk
        cases hpk
        have : sk.pub = k := by
          have := Except.ok.inj hb
          injection this
        rw [← this, hpe]
      subst hkk
      have hty : (KBody.key false sub k none).type = 6 ∨ (KBody.key false sub k none).type = 14 := by cases sub <;> simp [KBody.type]
      have hex : Expressible ⟨f, (KBody.key false sub k none).type, pub⟩ := by
        rcases h5 with ⟨a, b, c, d⟩ | ⟨a, b, c⟩
        · refine .inl ⟨a, by cases sub <;> simp [KBody.type], hpos, ?_⟩
          simp only [List.length_append] at d ⊢; omega
        · refine .inr ⟨a, by cases sub <;> simp [KBody.type], ?_⟩
          simp only [List.length_append] at c ⊢; omega
      obtain ⟨e', he', _⟩ := C09_frame_roundtrip_partial _ hex
      have he' := he' 1 (Nat.le_refl 1)
      obtain ⟨hd', hh', rfl⟩ := (C83_packet_octets_iff _ hex e').mp he'
      refine ⟨_, _, ⟨?_, ?_, h3, h4, hex, pub, hk1, hk2⟩, he', ?_⟩
      · have hp0 := hp1 []
        rw [List.append_nil] at hp0
        unfold readPacket readBody
        rw [dif_pos hty]
        simp only [hp0, except_bind_ok, except_pure, KPacket.toPublic, KBody.toPublic]
        cases sub <;> rfl
      · simp only [KPacket.raw, KPacket.toPublic, KBody.toPublic, KBody.content, hk1, except_bind_ok, except_pure]; rfl
      · cases sub
        · exact .key f hd hd' pub rest hk2 hh hh'
        · exact .subkey f hd hd' pub rest hk2 hh hh'
  | other t => cases hc
  | _ => exact same (by intros; simp) (by simp [KBody.type])

theorem rep_half {magic : Bytes → Str} {F : HeaderFormat → Prop} {fl : Nat → Nat} {good : Nat → Prop} (hg : GoodInts fl good) {b : Bytes} {ps : List KPacket}
    (h : Rep magic F fl good b ps) (hp : ∀ p ∈ ps, ∀ sub k priv, p.body ≠ .key false sub k priv) :
    ∃ b', Rep magic F fl good b' (ps.map KPacket.toPublic) ∧ PublicHalf good b b' := by
  obtain ⟨rs, es, h1, h2, rfl⟩ := h
  induction h1 generalizing es with
  | nil => cases h2; exact ⟨[], rep_nil, [], [], .nil, rfl, rfl⟩
  | cons hx _ ih =>
    rw [List.mapM_cons] at h2
    obtain ⟨e, he, h2⟩ := except_bind_eq_ok.mp h2
    obtain ⟨es', hes, h2⟩ := except_bind_eq_ok.mp h2
    cases h2
    obtain ⟨r', e', h3, h4, h5⟩ := packet_half hg hx he (hp _ List.mem_cons_self)
    obtain ⟨b', h6, xs, ys, h7, h8, h9⟩ := ih (fun p hpp => hp p (List.mem_cons_of_mem _ hpp)) es' hes
    have h3' : Rep magic F fl good e' [KPacket.toPublic _] := ⟨[r'], [e'], .cons h3 .nil, by simp [h4], by simp⟩
    exact ⟨e' ++ b', rep_append h3' h6, e :: xs, e' :: ys, .cons h5 h7, by simp [h8], by simp [h9]⟩

theorem sigrun_public {ts : List Nat} {a : Bool} {l : List KBody} (h : SigRun ts a l) : l.map KBody.toPublic = l ∧ ∀ p ∈ l, ∀ s sub k priv, p ≠ .key s sub k priv := by
  have : ∀ p ∈ l, ∀ s sub k priv, p ≠ .key s sub k priv := by
    rintro p hp s sub k priv rfl
    rcases h.1 _ hp with h | h <;> exact h
  refine ⟨map_id_of fun p hp => ?_, this⟩
  cases p with
  | key s sub k priv => exact absurd rfl (this _ hp s sub k priv)
  | _ => rfl

theorem groups_map {G G' : List KBody → Prop} {f : KBody → KBody} (hf : ∀ g, G g → G' (g.map f)) {l : List KBody} (h : Groups G l) : Groups G' (l.map f) := by
  obtain ⟨gs, rfl, hg⟩ := h
  refine ⟨gs.map (List.map f), by simp, ?_⟩
  intro g hgm
  obtain ⟨x, hx, rfl⟩ := List.mem_map.mp hgm
  exact hf x (hg x hx)

theorem groups_all {G : List KBody → Prop} {Q : KBody → Prop} (hf : ∀ g, G g → ∀ p ∈ g, Q p) {l : List KBody} (h : Groups G l) : ∀ p ∈ l, Q p := by
  obtain ⟨gs, rfl, hg⟩ := h
  intro p hp
  obtain ⟨g, hgm, hpg⟩ := List.mem_flatten.mp hp
  exact hf g (hg g hgm) p hpg

/-- The packets of a secret key: no public keys among them, and their public halves form a public key. -/
theorem sequence_half {ps : List KBody} (h : KeySequence true ps) :
    KeySequence false (ps.map KBody.toPublic) ∧ ∀ p ∈ ps, ∀ sub k priv, p ≠ .key false sub k priv := by
  obtain ⟨k, priv, d, u, a, s, rfl, h1, h2, h3, h4, h5⟩ := h
  have hd := sigrun_public h1.1
  constructor
  · refine ⟨k, none, d, u.map KBody.toPublic, a.map KBody.toPublic, s.map KBody.toPublic, by simp [KBody.toPublic, hd.1], h1, ?_, ?_, ?_, ?_⟩
    · refine groups_map (fun g hg => ?_) h2
      obtain ⟨n, b, rfl, hb⟩ := hg
      exact ⟨n, b, by simp [KBody.toPublic, (sigrun_public hb).1], hb⟩
    · refine groups_map (fun g hg => ?_) h3
      obtain ⟨n, b, rfl, hb⟩ := hg
      exact ⟨n, b, by simp [KBody.toPublic, (sigrun_public hb).1], hb⟩
    · refine groups_map (fun g hg => ?_) h4
      obtain ⟨k, _, b, rfl, hn, hb⟩ := hg
      exact ⟨k, none, b, by simp [KBody.toPublic, (sigrun_public hb).1], hn, hb⟩
    · intro hv; rw [h5 hv]; rfl
  · intro p hp
    simp only [List.mem_cons, List.mem_append] at hp
    rcases hp with rfl | ((hp | hp) | hp) | hp
    · intros; simp
    · exact fun sub k priv => hd.2 p hp false sub k priv
    · refine groups_all (Q := fun p => ∀ sub k priv, p ≠ .key false sub k priv) (fun g hg => ?_) h2 p hp
      obtain ⟨n, b, rfl, hb⟩ := hg
      intro q hq
      rcases List.mem_cons.mp hq with rfl | hq
      · intros; simp
      · exact fun sub k priv => (sigrun_public hb).2 q hq false sub k priv
    · refine groups_all (Q := fun p => ∀ sub k priv, p ≠ .key false sub k priv) (fun g hg => ?_) h3 p hp
      obtain ⟨n, b, rfl, hb⟩ := hg
      intro q hq
      rcases List.mem_cons.mp hq with rfl | hq
      · intros; simp
      · exact fun sub k priv => (sigrun_public hb).2 q hq false sub k priv
    · refine groups_all (Q := fun p => ∀ sub k priv, p ≠ .key false sub k priv) (fun g hg => ?_) h4 p hp
      obtain ⟨n, _, b, rfl, _, hb⟩ := hg
      intro q hq
      rcases List.mem_cons.mp hq with rfl | hq
      · intros; simp
      · exact fun sub k priv => (sigrun_public hb).2 q hq false sub k priv

/-- C71 (part that holds): the public key made from a secret key (as in C91) has exactly the octets of the secret key file, with the part behind the public values
cut off the key packets; in particular no octet of the secret parts; and it is read back as a public key with these octets. -/
theorem C71_public_half_partial (magic : Bytes → Str) (fl : Nat → Nat) (hl : LogOnCounts fl) (good : Nat → Prop)
    (hg : ∀ i, good i → LogRoom fl i ∧ (0 < i → fl i = Nat.log2 i)) (F : HeaderFormat → Prop) (data : Bytes)
    (h : SecretKeyFile magic F good data) (expires : Nat → Py Unit) (k k' : TKey) (hk : readKey magic data = .ok k) (hp : k.toPublic expires = .ok k') :
    ∃ data', k'.octets fl none = .ok data' ∧ PublicHalf good data data' ∧
      ∃ k'', readKey magic data' = .ok k'' ∧ k''.octets fl none = .ok data' := by
  obtain ⟨ps, h1, h2⟩ := secret_file_rep hl hg h
  obtain ⟨k1, h3, h4, _⟩ := rep_read h1 h2
  rw [hk] at h3
  cases h3
  obtain ⟨hs, hn⟩ := sequence_half h2
  obtain ⟨b', hr, hh⟩ := rep_half hg h1 (fun p hpp => hn _ (List.mem_map_of_mem hpp))
  have hs' : KeySequence false ((ps.map KPacket.toPublic).map KPacket.body) := by
    have : (ps.map KPacket.toPublic).map KPacket.body = (ps.map KPacket.body).map KBody.toPublic := by simp [KPacket.toPublic, Function.comp_def]
    rw [this]; exact hs
  obtain ⟨k2, h5, h6, h7⟩ := rep_read hr hs'
  have hk' : k'.toPackets = .ok (ps.map KPacket.toPublic) := by
    have hfp : ∃ c qs, TKey.fromPackets magic c qs = .ok k := by
      unfold readKey at hk
      obtain ⟨_, _, hk⟩ := except_bind_eq_ok.mp hk
      obtain ⟨_, _, hk⟩ := except_bind_eq_ok.mp hk
      obtain ⟨_, _, hk⟩ := except_bind_eq_ok.mp hk
      exact ⟨_, _, hk⟩
    obtain ⟨c, qs, hfp⟩ := hfp
    exact toPublic_packets magic c qs ps k k' expires hfp h4 hp
  have ho : k'.octets fl none = .ok b' := by
    have := h7 none (fun _ _ => rfl)
    unfold TKey.octets at this ⊢
    rw [h6] at this
    rw [hk']; exact this
  exact ⟨b', ho, hh, k2, h5, h7 none (fun _ _ => rfl)⟩

/-- `to_public_key` succeeds if the expiration times can be read (C68 says when that is). -/
theorem toPublic_ok (k : TKey) (expires : Nat → Py Unit) (h : ∀ i ≤ k.subs.length, expires i = .ok ()) : ∃ k', k.toPublic expires = .ok k' := by
  have : ∀ l : List Nat, (∀ i ∈ l, i < k.subs.length) → ∃ x, (l.mapM fun i => expires (i + 1)) = .ok x := by
    intro l
    induction l with
    | nil => exact fun _ => ⟨[], rfl⟩
    | cons a l ih =>
      intro hl
      obtain ⟨x, hx⟩ := ih fun i hi => hl i (List.mem_cons_of_mem _ hi)
      exact ⟨() :: x, by rw [List.mapM_cons, h (a + 1) (hl a List.mem_cons_self), hx]; rfl⟩
  obtain ⟨x, hx⟩ := this (List.range k.subs.length) (fun i hi => List.mem_range.mp hi)
  exact ⟨_, by simp only [TKey.toPublic, h 0 (Nat.zero_le _), hx, except_bind_ok]; rfl⟩

/-- C71: the public part of a secret key can be made exactly if the expiration time of the key and that of each of its subkeys (`expires i` for the `i`-th one) can be
read. -/
theorem C71_public_made_iff (k : TKey) (expires : Nat → Py Unit) : (∃ k', k.toPublic expires = .ok k') ↔ ∀ i ≤ k.subs.length, expires i = .ok () := by
  refine ⟨?_, toPublic_ok k expires⟩
  rintro ⟨k', h⟩ i hi
  unfold TKey.toPublic at h
  obtain ⟨u, h0, h⟩ := except_bind_eq_ok.mp h
  obtain ⟨x, hx, _⟩ := except_bind_eq_ok.mp h
  cases i with
  | zero => exact h0
  | succ i =>
    have hall : ∀ (l : List Nat) (y : List Unit), (l.mapM fun i => expires (i + 1)) = .ok y → ∀ j ∈ l, expires (j + 1) = .ok () := by
      intro l
      induction l with
      | nil => exact fun _ _ j hj => absurd hj List.not_mem_nil
      | cons a l ih =>
        intro y hy j hj
        rw [List.mapM_cons] at hy
        obtain ⟨z, hz, hy⟩ := except_bind_eq_ok.mp hy
        obtain ⟨w, hw, _⟩ := except_bind_eq_ok.mp hy
        rcases List.mem_cons.mp hj with rfl | hj
        · exact hz
        · exact ih w hw j hj
    exact hall _ _ hx i (List.mem_range.mpr (by omega))

/-! ### What is not read, or not written -/

/-- C91 fails: a secret key that is not protected by a passphrase cannot be read at all, whatever follows. -/
theorem C91_unprotected_refuted (magic : Bytes → Str) (fl : Nat → Nat) (good : Nat → Prop) (hg : ∀ i, good i → LogRoom fl i ∧ (0 < i → fl i = Nat.log2 i))
    (type : Nat) (ht : type = 5 ∨ type = 7) (b tail : Bytes) (h : PacketOf (fun _ => True) type (OtherUsageWire good) b) : Raises (readKey magic (b ++ tail)) := by
  obtain ⟨f, hd, c, _, ⟨pub, usage, rest, hk, hu1, hu2, rfl⟩, hh, rfl⟩ := h
  obtain ⟨h5, h6⟩ := header_written hh
  obtain ⟨e, he, hrd⟩ := C09_frame_roundtrip_partial _ h6
  have he := he 1 (Nat.le_refl 1)
  rw [h5] at he
  have he := Except.ok.inj he
  have hrd := hrd [] tail
  rw [← he] at hrd
  simp only [List.nil_append, List.length_nil] at hrd
  generalize hdat : hd ++ (pub ++ usage :: rest) ++ tail = data at hrd ⊢
  have hpos : 0 < data.length := by rw [← hdat]; simp
  obtain ⟨n, hn⟩ : ∃ n, data.length = n + 1 := ⟨data.length - 1, by omega⟩
  unfold readKey parseBinaryPacketData
  rw [hn, parseLoop, if_pos hpos, hrd]
  simp only [except_bind_ok]
  generalize parseLoop data n _ = q
  cases q with
  | error e => exact ⟨e, rfl⟩
  | ok rs =>
    obtain ⟨k, hp, _⟩ := keyWire_parse hg hk
    obtain ⟨er, her⟩ := C50_other_usages_raise (pub ++ usage :: rest) pub.length k (hp _) usage (by simp) hu1 hu2
    refine ⟨er, ?_⟩
    have hb : readPacket ⟨f, type, pub ++ usage :: rest⟩ = .error er := by
      unfold readPacket readBody
      rw [dif_neg (by rcases ht with rfl | rfl <;> simp), dif_pos ht, her]
      rfl
    simp only [except_bind_ok, except_pure, List.mapM_cons, hb]
    rfl

/-- C91 fails: a secret key without its secret part, as GnuPG exports one, is read but cannot be written. -/
theorem C91_stub_refuted (magic : Bytes → Str) (fl : Nat → Nat) (good : Nat → Prop) (hg : ∀ i, good i → LogRoom fl i ∧ (0 < i → fl i = Nat.log2 i))
    (b : Bytes) (h : PacketOf (fun _ => True) 5 (StubWire good) b) : ∃ k, readKey magic b = .ok k ∧ ∀ hf, Raises (k.octets fl hf) := by
  obtain ⟨f, hd, c, _, ⟨pub, usage, hash, hk, hu, rfl⟩, hh, rfl⟩ := h
  obtain ⟨h5, h6⟩ := header_written hh
  obtain ⟨es, h7, h8⟩ := C10_parse_concat_partial [⟨f, 5, pub ++ [usage, 0, 101, hash, 0x47, 0x4e, 0x55, 1]⟩] (by simpa using h6)
  simp only [List.mapM_cons, List.mapM_nil, h5, except_bind_ok, except_pure] at h7
  cases h7
  simp only [List.flatten_cons, List.flatten_nil, List.append_nil] at h8
  obtain ⟨k, hp, _, hdays, hv⟩ := keyWire_parse hg hk
  have hp := hp [usage, 0, 101, hash, 0x47, 0x4e, 0x55, 1]
  have hu0 : ¬usage = 0 := by rcases hu with rfl | rfl <;> decide
  have hs : parseSecKey (pub ++ [usage, 0, 101, hash, 0x47, 0x4e, 0x55, 1]) =
      .ok ⟨k, .gnupg hash.toNat 1001 0 none none, 0, [], [], usage = 255, usage = 254⟩ := by
    generalize hdat : pub ++ [usage, 0, 101, hash, 0x47, 0x4e, 0x55, 1] = data at hp ⊢
    have d0 : data.drop pub.length = [usage, 0, 101, hash, 0x47, 0x4e, 0x55, 1] := by rw [← hdat, List.drop_left]
    have d1 := drop_succ_of_drop d0
    have d2 := drop_succ_of_drop d1
    have d3 := drop_succ_of_drop d2
    have d4 := drop_succ_of_drop d3
    have d5 : data.drop (pub.length + 1 + 1 + 1 + 1 + 3) = [1] := drop_add_of_drop (a := [0x47, 0x4e, 0x55]) (s := [1]) d4
    have d6 := drop_succ_of_drop d5
    have hgnu : slice data (pub.length + 1 + 1 + 1 + 1) (pub.length + 1 + 1 + 1 + 1 + 3) = [0x47, 0x4e, 0x55] := slice_of_drop (a := [0x47, 0x4e, 0x55]) (s := [1]) d4 rfl
    have hz : slice data (pub.length + 1 + 1 + 1 + 1 + 3 + 1) (pub.length + 1 + 1 + 1 + 1 + 3 + 1 + 0) = [] := slice_of_drop (a := []) (s := []) d6 rfl
    simp [parseSecKey, hp, parseSecretPart, idx_of_drop d0, idx_of_drop d1, if_neg hu0, if_pos hu, parseS2k, idx_of_drop d2, idx_of_drop d3, hgnu, idx_of_drop d5, secretTail, blockLengths, hz, d6]
  have hkr : keyRound k = k := by
    unfold keyRound
    cases k; simp only at hdays; subst hdays; rfl
  let p : KPacket := ⟨f, .key true false k (some ⟨.gnupg hash.toNat 1001 0 none none, 0, [], [], usage = 255, usage = 254⟩)⟩
  have hrp : readPacket ⟨f, 5, pub ++ [usage, 0, 101, hash, 0x47, 0x4e, 0x55, 1]⟩ = .ok p := by
    simp [readPacket, readBody, hs, p]
  have hks : KeySequence true [p.body] :=
    ⟨k, _, [], [], [], [], rfl, ⟨⟨by simp, by simp⟩, by simp⟩, ⟨[], rfl, by simp⟩, ⟨[], rfl, by simp⟩, ⟨[], rfl, by simp⟩, fun _ => rfl⟩
  obtain ⟨tk, h9, h10⟩ := key_roundtrip magic true [p] hks (by intro q hq; rw [List.mem_singleton.mp hq]; exact hdays)
  refine ⟨tk, ?_, fun hf => ?_⟩
  · unfold readKey
    rw [h8]
    simp only [except_bind_ok, except_pure, List.mapM_cons, List.mapM_nil, hrp]
    exact h9
  · obtain ⟨er, her⟩ := C50_not_serialisable fl false ⟨k, .gnupg hash.toNat 1001 0 none none, 0, [], [], usage = 255, usage = 254⟩ (.inl rfl)
    refine ⟨er, ?_⟩
    unfold TKey.octets
    rw [h10]
    simp only [except_bind_ok, List.mapM_cons, KPacket.raw, p, KBody.content, her]
    rfl

/-! ### Concrete cases -/

/-- A secret key with a signature, a user id with a certification, and a secret subkey: AES with a salted specifier, IDEA with an iterated one. -/
def exProt1 : Bytes := exKeyOctets ++ ((254 : UInt8) :: 7 :: (Specifier.salted 8 [1, 2, 3, 4, 5, 6, 7, 8]).octets ++ List.replicate 16 9 ++ [1, 2, 3])
def exProt2 : Bytes := exKeyOctets ++ ((255 : UInt8) :: 1 :: (Specifier.iterated 2 [1, 2, 3, 4, 5, 6, 7, 8] 96).octets ++ List.replicate 8 3 ++ [5])
def exSecretFile (f : HeaderFormat) : Bytes :=
  exPacket f 5 44 exProt1 ++ (exPacket f 2 19 (exSigPlain 0x1f) ++ (exPacket f 13 5 [0x41, 0x6c, 0xc3, 0xa9, 0x21] ++ exPacket f 2 19 (exSigPlain 0x13)) ++
    [] ++ (exPacket f 7 35 exProt2 ++ (exPacket f 2 19 (exSigPlain 0x18) ++ [])))

theorem exSecretFile_ok (magic : Bytes → Str) (f : HeaderFormat) : SecretKeyFile magic (· = f) (· < 4096) (exSecretFile f) := by
  have key1 : PacketOf (· = f) 5 (SecretWire (· < 4096)) (exPacket f 5 44 exProt1) :=
    ⟨f, _, _, rfl, ⟨_, 254, 7, .salted 8 [1, 2, 3, 4, 5, 6, 7, 8], List.replicate 16 9, [1, 2, 3], exKeyOctets_ok, .inl rfl, rfl, rfl, by simp, rfl⟩,
      exHeader rfl (by decide) (by decide) (by decide), rfl⟩
  have key2 : PacketOf (· = f) 7 (SecretWire (· < 4096)) (exPacket f 7 35 exProt2) :=
    ⟨f, _, _, rfl, ⟨_, 255, 1, .iterated 2 [1, 2, 3, 4, 5, 6, 7, 8] 96, List.replicate 8 3, [5], exKeyOctets_ok, .inr rfl, rfl, rfl, by simp, rfl⟩,
      exHeader rfl (by decide) (by decide) (by decide), rfl⟩
  have sig : ∀ (t : Nat) (ts : List Nat), t ∈ ts → SigPacket (· = f) (· < 4096) ts (exPacket f 2 19 (exSigPlain (UInt8.ofNat t))) := fun t ts ht =>
    ⟨f, _, _, rfl, ⟨exSigPlain_ok _, t, ht, rfl⟩, exHeader rfl (by simp [exSigPlain, exSigOctets]) (by
      show (exSigPlain (UInt8.ofNat t)).length < 192
      simp only [exSigPlain, exSigOctets, List.length_append, List.length_cons, beBytes_length]
      decide) (by decide), rfl⟩
  have uid : PacketOf (· = f) 13 Utf8 (exPacket f 13 5 [0x41, 0x6c, 0xc3, 0xa9, 0x21]) :=
    ⟨f, _, _, rfl, ⟨"Alé!".toList, by decide +kernel⟩, exHeader rfl (by decide) (by decide) (by decide), rfl⟩
  exact ⟨_, _, _, _, _, key1, cat_one (sig 0x1f _ (by decide)), cat_one ⟨_, _, uid, cat_one (sig 0x13 _ (by decide)), rfl⟩, ⟨[], by simp, rfl⟩,
    cat_one ⟨_, _, [], key2, sig 0x18 _ (by decide), ⟨[], by simp, rfl⟩, rfl⟩, rfl⟩

example (magic : Bytes → Str) := C91_import_export_partial magic Nat.log2 (fun _ _ _ => rfl) (· < 4096) exGood (· = .new) (exSecretFile .new) (exSecretFile_ok magic .new)
example (magic : Bytes → Str) := C91_serialize_key_partial magic Nat.log2 (fun _ _ _ => rfl) (· < 4096) exGood .old (exSecretFile .old) (exSecretFile_ok magic .old)

example (magic : Bytes → Str) : ∃ data', PublicHalf (· < 4096) (exSecretFile .new) data' := by
  have ok := exSecretFile_ok magic .new
  obtain ⟨k, hk, _⟩ := C91_import_export_partial magic Nat.log2 (fun _ _ _ => rfl) (· < 4096) exGood (· = .new) (exSecretFile .new) ok
  obtain ⟨k', hp⟩ := toPublic_ok k (fun _ => .ok ()) fun _ _ => rfl
  obtain ⟨d, _, h, _⟩ := C71_public_half_partial magic Nat.log2 (fun _ _ _ => rfl) (· < 4096) exGood (· = .new) _ ok _ k k' hk hp
  exact ⟨d, h⟩

example (magic : Bytes → Str) (tail : Bytes) := C91_unprotected_refuted magic Nat.log2 (· < 4096) exGood 5 (.inl rfl)
  (exPacket .new 5 16 (exKeyOctets ++ [0, 0, 1])) tail
  ⟨.new, _, _, trivial, ⟨_, 0, [0, 1], exKeyOctets_ok, by decide, by decide, rfl⟩, exHeader rfl (by decide) (by decide) (by decide), rfl⟩

example (magic : Bytes → Str) := C91_stub_refuted magic Nat.log2 (· < 4096) exGood
  (exPacket .new 5 21 (exKeyOctets ++ [255, 0, 101, 2, 0x47, 0x4e, 0x55, 1]))
  ⟨.new, _, _, trivial, ⟨_, 255, 2, exKeyOctets_ok, .inr rfl, rfl⟩, exHeader rfl (by decide) (by decide) (by decide), rfl⟩

end Pgp.Props
