import Verif.Model.PubEncrypt
import Verif.Props.Message
/-
Property theorems C81: a message encrypted to public keys is opened by each recipient.
-/
namespace Pgp.Props
open Spec

/-- An RSA key pair: the key id, encryption (PKCS#1 padding and its randomness included), decryption, and the number of octets of the
modulus. -/
structure RsaPair where
  id : Bytes
  enc : Bytes → Bytes
  dec : Bytes → Option Bytes
  k : Nat

/-- The pair as a recipient. -/
def RsaPair.recipient (r : RsaPair) : Recipient := ⟨hexText r.id, 1, .rsa r.enc⟩

/-- The pair as the holder of the secret key, whatever the key makes of ElGamal packets. -/
def RsaPair.holder (r : RsaPair) (single : Bytes → Py (Nat × Bytes)) : SecMaterial := .rsa r.dec r.k single

/-- A working pair: for messages that leave room for eleven octets of padding, decryption inverts encryption and ciphertexts are as long as
the modulus. -/
structure RsaPair.Works (r : RsaPair) : Prop where
  id : r.id.length = 8
  inv : ∀ m, m.length + 11 ≤ r.k → r.dec (r.enc m) = some m
  len : ∀ m, m.length + 11 ≤ r.k → (r.enc m).length = r.k

/-- The integer in the packet made for a session key is the ciphertext, if that does not begin with a zero octet. -/
theorem rsa_esk (fl : Nat → Nat) (enc : Bytes → Bytes) (sym : Nat) (hsym : sym < 256) (sk : Bytes)
    (x : UInt8) (b : Bytes) (hc : ∀ m, SessionBlock (UInt8.ofNat sym) sk m → enc m = x :: b) (hx : x ≠ 0) (hfl : OctetLog fl (beNat (x :: b))) :
    ∃ esk, rsaEncryptKey fl enc sym sk = .ok esk ∧ mpiSlices esk esk.length 0 = .ok [x :: b] ∧ esk.length = b.length + 3 ∧ b.length < 8192 := by
  obtain ⟨m, hm1, hm2, hm3⟩ := C45_block_roundtrip sym hsym sk
  have he := hc m hm2
  have hx0 : 0 < x.toNat := by
    rcases Nat.eq_zero_or_pos x.toNat with h | h
    · exact absurd (UInt8.toNat_inj.mp (by simpa using h)) hx
    · exact h
  have hlo : 256 ^ b.length ≤ beNat (x :: b) := by
    rw [beNat_cons]; exact Nat.le_trans (Nat.le_mul_of_pos_left _ hx0) (Nat.le_add_right ..)
  have hhi := beNat_lt (x :: b)
  have hpos : 0 < beNat (x :: b) := Nat.lt_of_lt_of_le (Nat.pow_pos (by omega)) hlo
  obtain ⟨c, e, i1, v1, cl, l1, l1', s1⟩ := mpiSlices_step (fl := fl) (logRoom_of_octets hfl) hpos
  have hn0 : beNat (x :: b) ≠ 0 := by omega
  have hcl : c.length = b.length + 1 := by
    rw [cl, hfl.2]
    have a1 : 8 * b.length ≤ Nat.log2 (beNat (x :: b)) := (Nat.le_log2 hn0).mpr (by rw [Nat.pow_mul]; exact hlo)
    have a2 : Nat.log2 (beNat (x :: b)) < 8 * (b.length + 1) := (Nat.log2_lt hn0).mpr (by rw [Nat.pow_mul]; simpa using hhi)
    unfold octetsFor; omega
  have hceq : c = x :: b := beNat_inj (by rw [hcl, List.length_cons]) v1
  have hbl : b.length < 8192 := by
    have h1 := hfl.1
    rw [hcl] at cl
    unfold octetsFor at cl
    clear hlo hhi hpos hn0
    omega
  refine ⟨e, ?_, ?_, ?_, hbl⟩
  · unfold rsaEncryptKey
    simp only [hm1, except_bind_ok, he, osToInt_eq, i1]
  · rw [show e.length = (e.length - 1) + 1 by omega, s1 (s := []) (by simp), mpiSlices_end (by omega), hceq]; rfl
  · clear hlo hhi hpos hn0; omega

/-- What the list of session key objects made for recipients looks like. -/
theorem made_keys (fl : Nat → Nat) (sym : Nat) (sk : Bytes) (hide : Bool) : ∀ (rs : List Recipient) (esks : List Bytes),
    List.Forall₂ (fun r e => r.encryptKey fl sym sk = .ok e) rs esks →
    rs.mapM (newPubSessKey fl sym sk hide) =
      .ok ((rs.zip esks).map fun x => SessKey.pub .new ⟨3, some x.1.keyId, x.1.alg, x.2⟩)
  | _, _, .nil => rfl
  | _, _, .cons h hs => by
    rw [List.mapM_cons, made_keys fl sym sk hide _ _ hs]
    simp only [newPubSessKey, h, publicKeySessionKeyPacket, except_bind_ok, except_pure, List.zip_cons_cons, List.map_cons]

/-- The message made for recipients whose encryption works is written and read, and opens with any key that takes the session key from
one packet and refuses the packets before it with ValueError. -/
theorem encrypted_opens (S : BlockCiphers) (H : Digest) (fl : Nat → Nat) (hl : LogOnCounts fl) (o : Nat → Py Bytes)
    (op : Nat → Bytes → Bytes → Bytes → Py Bytes) (accept : RawPacket → Py Unit) (hacc : ∀ p, p.type = 19 → accept p = .ok ())
    (hH : ∀ d, (H 2 d).length = 20) (m : Msg) (hm : Sendable fl m) (rs : List RawPacket) (ps : List MPacket)
    (hps : m.toPackets = .ok ps) (hrs : ps.mapM (MPacket.raw fl o) = .ok rs) (hex : ∀ r ∈ rs, Expressible r)
    (sym bl : Nat) (sk iv : Bytes) (us : Usable S sym bl sk) (hiv : iv.length = bl)
    (w : Bytes) (hw : m.bytes fl o = .ok w) (hwl : w.length + bl + 25 < 2 ^ 32)
    (publicKeys hidden : List Recipient) (hne : publicKeys ≠ []) (esks eskh : List Bytes)
    (he1 : List.Forall₂ (fun r e => r.encryptKey fl sym sk = .ok e) publicKeys esks)
    (he2 : List.Forall₂ (fun r e => r.encryptKey fl sym sk = .ok e) hidden eskh)
    (hid : ∀ r ∈ publicKeys ++ hidden, r.alg < 256 ∧ ∃ id : Bytes, id.length = 8 ∧ r.keyId = hexText id)
    (hlen : ∀ e ∈ esks ++ eskh, e.length + 11 < 2 ^ 32) :
    ∃ e data, publicKeyEncrypt S H fl o m sym none (some publicKeys) (some hidden) sk iv true = .ok e ∧ e.bytes fl o = .ok data ∧
      readMessage accept data = .ok e ∧
      ∀ (dec : PkEsk → Py (Nat × Bytes)) pre x post, (publicKeys ++ hidden).zip (esks ++ eskh) = pre ++ x :: post →
        (∀ y ∈ pre, dec ⟨3, some y.1.keyId, y.1.alg, y.2⟩ = .error .valueError) →
        dec ⟨3, some x.1.keyId, x.1.alg, x.2⟩ = .ok (sym, sk) →
        e.getMessage S H op accept (.secretKey false dec) = .ok m := by
  -- the packets of the message
  obtain ⟨ps0, ps', h1, h2, h3⟩ := sendable_reads hl o accept hm
  rw [hps] at h1; cases h1
  obtain ⟨rs0, g1, g2, g3⟩ := reads_lists h2
  rw [hrs] at g1; cases g1
  obtain ⟨es, k1, k2⟩ := C10_parse_concat_partial rs hex
  have hwe : w = es.flatten := by
    simp only [Msg.bytes, hps, hrs, joinPackets, k1, except_bind_ok, except_pure, Except.ok.injEq] at hw
    exact hw.symm
  subst hwe
  have hwne : es.flatten ≠ [] := by
    intro hz
    rw [hz] at k2
    cases k2
    cases g2
    cases h3
  -- the data
  obtain ⟨c, e1, e2, _⟩ := C29_encrypt_standard_partial S H sym bl sk iv es.flatten us hiv hH
  obtain ⟨c', e1', e3⟩ := C29_integrity_roundtrip_partial S H sym bl sk iv es.flatten us hiv hH
    (fun p => do let _ ← parseMBody accept p) (by
      intro p hp
      simp only [parseMBody, hp]
      simp [hacc p hp])
  rw [e1] at e1'; cases e1'
  have hz : (publicKeys ++ hidden).zip (esks ++ eskh) = publicKeys.zip esks ++ hidden.zip eskh :=
    List.zip_append he1.length_eq
  generalize hL : (publicKeys ++ hidden).zip (esks ++ eskh) = L at hz
  let keys := L.map fun x => SessKey.pub .new ⟨3, some x.1.keyId, x.1.alg, x.2⟩
  have hLne : L ≠ [] := by
    rw [hz]
    cases he1 with
    | nil => exact absurd rfl hne
    | cons _ _ => simp
  have hmemL : ∀ x ∈ L, x.1 ∈ publicKeys ++ hidden ∧ x.2 ∈ esks ++ eskh := by
    intro x hx
    rw [← hL] at hx
    exact ⟨(List.of_mem_zip hx).1, (List.of_mem_zip hx).2⟩
  have hsend : Sendable fl (.encrypted keys true (some 1) (some c)) :=
    .encrypted _ (by simpa [keys] using hLne) (by
      intro k hk
      obtain ⟨x, hx, rfl⟩ := List.mem_map.mp hk
      obtain ⟨ha, id, hid1, hid2⟩ := hid x.1 (hmemL x hx).1
      exact ⟨by show 3 < 256; omega, ha, id, hid1, by rw [hid2]⟩) 1 (by omega) c
  obtain ⟨qs, rs', q1, q2, q3⟩ := C66_message_roundtrip_partial fl hl o accept _ hsend
  obtain ⟨data, q4, q5⟩ := q3 (by
    have t1 : ∀ l : List (Recipient × Bytes), (l.map fun x => SessKey.pub .new ⟨3, some x.1.keyId, x.1.alg, x.2⟩).mapM SessKey.toPacket =
        .ok (l.map fun x => ⟨.new, .pkesk ⟨3, some x.1.keyId, x.1.alg, x.2⟩⟩) := by
      intro l
      induction l with
      | nil => rfl
      | cons y ys ih => simp only [List.map_cons, List.mapM_cons, SessKey.toPacket, ih, except_bind_ok, except_pure]
    have t2 : (Msg.encrypted keys true (some 1) (some c)).toPackets =
        .ok (L.map (fun x => (⟨.new, .pkesk ⟨3, some x.1.keyId, x.1.alg, x.2⟩⟩ : MPacket)) ++ [⟨.new, .seipd ⟨1, c⟩⟩]) := by
      simp only [Msg.toPackets, keys, t1, encDataPacket, if_true, except_bind_ok, except_pure]
    rw [t2] at q1; cases q1
    have t3 : ∀ l : List (Recipient × Bytes), (∀ x ∈ l, (x.1.alg < 256 ∧ ∃ id : Bytes, id.length = 8 ∧ x.1.keyId = hexText id) ∧
        x.2.length + 11 < 2 ^ 32) → ∃ rl, List.mapM (MPacket.raw fl o) (l.map (fun (x : Recipient × Bytes) =>
          (⟨.new, .pkesk ⟨3, some x.1.keyId, x.1.alg, x.2⟩⟩ : MPacket)) ++ [⟨.new, .seipd ⟨1, c⟩⟩]) = .ok rl ∧ ∀ r ∈ rl, Expressible r := by
      intro l
      induction l with
      | nil =>
        intro _
        refine ⟨[⟨.new, 18, 1 :: c⟩], rfl, ?_⟩
        intro r hr
        rw [List.mem_singleton] at hr
        subst hr
        refine .inl ⟨rfl, by simp, by simp, ?_⟩
        simp only [List.length_cons]; omega
      | cons y ys ih =>
        intro h
        obtain ⟨rl, i1, i2⟩ := ih (fun x hx => h x (by simp [hx]))
        obtain ⟨⟨ha, id, hid1, hid2⟩, hle⟩ := h y (by simp)
        refine ⟨⟨.new, 1, [3] ++ id ++ [UInt8.ofNat y.1.alg] ++ y.2⟩ :: rl, ?_, ?_⟩
        · have : (MPacket.mk .new (.pkesk ⟨3, some y.1.keyId, y.1.alg, y.2⟩)).raw fl o =
              .ok ⟨.new, 1, [3] ++ id ++ [UInt8.ofNat y.1.alg] ++ y.2⟩ := by
            rw [hid2, ← hexOf_eq_hexText]
            simp only [MPacket.raw, MBody.content, PkEsk.content, Option.getD_some, byteOf_lt ha, hexToBytes_hexOf hid1,
              byteOf_lt (show 3 < 256 by omega), except_bind_ok, except_pure, MBody.type]
            rfl
          rw [List.map_cons, List.cons_append, List.mapM_cons, this, i1]
          rfl
        · intro r hr
          rcases List.mem_cons.mp hr with rfl | hr
          · refine .inl ⟨rfl, by simp, by simp, ?_⟩
            simp only [List.length_append, List.length_cons, List.length_nil, hid1]; omega
          · exact i2 r hr
    obtain ⟨rl, i1, i2⟩ := t3 L (fun x hx => ⟨hid _ (hmemL x hx).1, hlen _ (hmemL x hx).2⟩)
    rw [i1] at q2
    cases q2
    exact i2)
  refine ⟨_, data, ?_, q4, q5, ?_⟩
  · simp only [publicKeyEncrypt, made_keys fl sym sk false _ _ he1, Option.getD_some, made_keys fl sym sk true _ _ he2, hw,
      newEncryptedData, if_neg hwne, if_true, e1, except_bind_ok, except_pure]
    rw [← List.map_append, ← hz]
  · intro dec pre x post hsplit hpre hx
    refine (C38_opens_iff_partial S H op accept _ keys true _ _ m).mpr
      ⟨pre.map (fun x => SessKey.pub .new ⟨3, some x.1.keyId, x.1.alg, x.2⟩), SessKey.pub .new ⟨3, some x.1.keyId, x.1.alg, x.2⟩,
        post.map (fun x => SessKey.pub .new ⟨3, some x.1.keyId, x.1.alg, x.2⟩), sym, some sk, ?_, ?_, ?_, ?_⟩
    · show List.map _ L = _
      rw [hsplit, List.map_append, List.map_cons]
    · intro y hy
      obtain ⟨z, hz1, rfl⟩ := List.mem_map.mp hy
      refine ⟨⟨_, _, rfl⟩, ?_⟩
      simp only [sessionKeyFor, Bool.false_eq_true, if_false, hpre z hz1]
      rfl
    · simp only [sessionKeyFor, Bool.false_eq_true, if_false, hx, except_bind_ok, except_pure]
    · have hd := (e3 rs).mpr ⟨k2, g3⟩
      simp only [decryptMessage, if_true, hd, g2, except_bind_ok]
      exact h3

theorem forall₂_append {α β : Type} {R : α → β → Prop} : ∀ {a c : List α} {b d : List β}, List.Forall₂ R a b → List.Forall₂ R c d →
    List.Forall₂ R (a ++ c) (b ++ d)
  | _, _, _, _, .nil, h => h
  | _, _, _, _, .cons x xs, h => .cons x (forall₂_append xs h)

theorem forall₂_append_left {α β : Type} {R : α → β → Prop} : ∀ {a c : List α} {l : List β}, List.Forall₂ R (a ++ c) l →
    ∃ b d, List.Forall₂ R a b ∧ List.Forall₂ R c d ∧ l = b ++ d
  | [], _, l, h => ⟨[], l, .nil, h, rfl⟩
  | _ :: _, _, _, .cons x xs => by
    obtain ⟨b, d, h1, h2, rfl⟩ := forall₂_append_left xs
    exact ⟨_ :: b, d, .cons x h1, h2, rfl⟩

theorem mem_zip_forall₂ {α β γ : Type} {R : α → β → Prop} {f : α → γ} : ∀ {a : List α} {b : List β} {y : γ × β}, List.Forall₂ R a b →
    y ∈ (a.map f).zip b → ∃ p, (p ∈ a ∧ y.1 = f p) ∧ R p y.2
  | _, _, _, .nil, h => by simp at h
  | _, _, y, .cons x xs, h => by
    rw [List.map_cons, List.zip_cons_cons] at h
    rcases List.mem_cons.mp h with rfl | h
    · exact ⟨_, ⟨by simp, rfl⟩, x⟩
    · obtain ⟨p, hp, hr⟩ := mem_zip_forall₂ xs h
      exact ⟨p, ⟨by simp [hp.1], hp.2⟩, hr⟩

/-- The encrypted session keys of RSA recipients. -/
theorem rsa_esks (fl : Nat → Nat) (sym : Nat) (hsym : sym < 256) (sk block : Bytes)
    (huniq : ∀ m, SessionBlock (UInt8.ofNat sym) sk m → m = block) : ∀ l : List RsaPair, (∀ r ∈ l, r.Works) →
    (∀ r ∈ l, block.length + 11 ≤ r.k) → (∀ r ∈ l, ∃ x b, r.enc block = x :: b ∧ x ≠ 0) →
    (∀ r ∈ l, OctetLog fl (beNat (r.enc block))) → ∃ es,
      List.Forall₂ (fun r e => r.encryptKey fl sym sk = .ok e) (l.map (·.recipient)) es ∧
      List.Forall₂ (fun (r : RsaPair) e => mpiSlices e e.length 0 = .ok [r.enc block]) l es ∧ ∀ e ∈ es, e.length < 8196
  | [], _, _, _, _ => ⟨[], .nil, .nil, by simp⟩
  | r :: rs, hworks, hfit, hzero, hfl => by
    obtain ⟨es, i1, i2, i3⟩ := rsa_esks fl sym hsym sk block huniq rs (fun x hx => hworks x (by simp [hx])) (fun x hx => hfit x (by simp [hx]))
      (fun x hx => hzero x (by simp [hx])) (fun x hx => hfl x (by simp [hx]))
    obtain ⟨x, b, hxb, hx⟩ := hzero r (by simp)
    have hk := (hworks r (by simp)).len block (hfit r (by simp))
    rw [hxb, List.length_cons] at hk
    obtain ⟨e, a1, a2, a3, a4⟩ := rsa_esk fl r.enc sym hsym sk x b (fun m hm => by rw [huniq m hm, hxb]) hx (by rw [← hxb]; exact hfl r (by simp))
    exact ⟨e :: es, .cons (by simp only [Recipient.encryptKey, RsaPair.recipient, true_or, if_true]; exact a1) i1, .cons (by rw [hxb]; exact a2) i2, by
      intro y hy
      rcases List.mem_cons.mp hy with rfl | hy
      · omega
      · exact i3 y hy⟩

/-- C81: a message encrypted to any number of RSA keys, named or hidden, and sent, is opened by each of the secret keys, and gives the same
message. (If no ciphertext begins with a zero octet, and each key refuses the ciphertexts made for the recipients before it.) -/
theorem C81_every_recipient_opens_partial (S : BlockCiphers) (H : Digest) (fl : Nat → Nat) (hl : LogOnCounts fl)
    (o : Nat → Py Bytes) (op : Nat → Bytes → Bytes → Bytes → Py Bytes) (accept : RawPacket → Py Unit)
    (hacc : ∀ p, p.type = 19 → accept p = .ok ()) (hH : ∀ d, (H 2 d).length = 20) (m : Msg) (hm : Sendable fl m)
    (rs : List RawPacket) (ps : List MPacket)
    (hps : m.toPackets = .ok ps) (hrs : ps.mapM (MPacket.raw fl o) = .ok rs) (hex : ∀ r ∈ rs, Expressible r)
    (sym bl : Nat) (hsym : sym < 256) (sk iv : Bytes) (us : Usable S sym bl sk) (hiv : iv.length = bl)
    (w : Bytes) (hw : m.bytes fl o = .ok w) (hwl : w.length + bl + 25 < 2 ^ 32)
    (named hidden : List RsaPair) (hne : named ≠ []) (hworks : ∀ r ∈ named ++ hidden, r.Works)
    (hroom : ∀ r ∈ named ++ hidden, sk.length + 14 ≤ r.k)
    (block : Bytes) (hblock : SessionBlock (UInt8.ofNat sym) sk block)
    (hzero : ∀ r ∈ named ++ hidden, ∃ x b, r.enc block = x :: b ∧ x ≠ 0)
    (hfl : ∀ r ∈ named ++ hidden, OctetLog fl (beNat (r.enc block)))
    (hother : (named ++ hidden).Pairwise fun a b => a.k ≠ b.k ∨ b.dec (a.enc block) = none) :
    ∃ e data, publicKeyEncrypt S H fl o m sym none (some (named.map (·.recipient))) (some (hidden.map (·.recipient))) sk iv true = .ok e ∧
      e.bytes fl o = .ok data ∧ readMessage accept data = .ok e ∧
      ∀ r ∈ named ++ hidden, ∀ single, e.getMessage S H op accept (.secretKey false (r.holder single).open_) = .ok m := by
  have huniq : ∀ m, SessionBlock (UInt8.ofNat sym) sk m → m = block := by
    intro m hm
    unfold SessionBlock at hm hblock
    rw [hm, hblock]
  have hfit : ∀ r ∈ named ++ hidden, block.length + 11 ≤ r.k := by
    intro r hr
    have := hroom r hr
    have : block.length = sk.length + 3 := by
      unfold SessionBlock at hblock
      rw [hblock]; simp [beBytes_length]
    omega
  obtain ⟨es1, a1, a2, a3⟩ := rsa_esks fl sym hsym sk block huniq named (fun r hr => hworks r (List.mem_append_left _ hr))
    (fun r hr => hfit r (List.mem_append_left _ hr)) (fun r hr => hzero r (List.mem_append_left _ hr)) (fun r hr => hfl r (List.mem_append_left _ hr))
  obtain ⟨es2, b1, b2, b3⟩ := rsa_esks fl sym hsym sk block huniq hidden (fun r hr => hworks r (List.mem_append_right _ hr))
    (fun r hr => hfit r (List.mem_append_right _ hr)) (fun r hr => hzero r (List.mem_append_right _ hr)) (fun r hr => hfl r (List.mem_append_right _ hr))
  obtain ⟨e, data, r1, r2, r3, r4⟩ := encrypted_opens S H fl hl o op accept hacc hH m hm rs ps hps hrs hex sym bl sk iv us hiv w hw hwl
    (named.map (·.recipient)) (hidden.map (·.recipient)) (by simpa using hne) es1 es2 a1 b1
    (by
      intro r hr
      rw [← List.map_append] at hr
      obtain ⟨p, hp, rfl⟩ := List.mem_map.mp hr
      exact ⟨by show 1 < 256; omega, p.id, (hworks p hp).id, rfl⟩)
    (by
      intro e he
      rcases List.mem_append.mp he with h | h
      · have := a3 e h; omega
      · have := b3 e h; omega)
  refine ⟨e, data, r1, r2, r3, ?_⟩
  intro r hr single
  have hall := forall₂_append a2 b2
  rw [← List.map_append] at r4
  obtain ⟨pre, post, hsplit⟩ := List.append_of_mem hr
  -- the packets before and at the recipient
  rw [hsplit] at hall
  obtain ⟨ep, et, c1, c2, c3⟩ := forall₂_append_left hall
  cases c2 with
  | @cons _ ex _ ep' d1 d2 =>
    refine r4 (r.holder single).open_ (List.zip (pre.map (·.recipient)) ep) (r.recipient, ex) (List.zip (post.map (·.recipient)) ep') ?_ ?_ ?_
    · rw [hsplit, c3, List.map_append, List.map_cons, List.zip_append (by rw [List.length_map]; exact c1.length_eq), List.zip_cons_cons]
    · intro y hy
      obtain ⟨p, hp, hpe⟩ := mem_zip_forall₂ c1 (f := (·.recipient)) hy
      have hpair : p.k ≠ r.k ∨ r.dec (p.enc block) = none := by
        rw [hsplit] at hother
        exact (List.pairwise_append.mp hother).2.2 p hp.1 r (by simp)
      have hpw := hworks p (by rw [hsplit]; simp [hp.1])
      simp only [SecMaterial.open_, RsaPair.holder]
      rw [if_pos (by left; rw [hp.2]; rfl)]
      unfold rsaDecryptKey
      rw [hpe]
      simp only [except_bind_ok]
      rcases hpair with h | h
      · rw [if_pos (by rw [hpw.len _ (hfit p (by rw [hsplit]; simp [hp.1]))]; exact h)]
      · rw [h]
        split <;> rfl
    · obtain ⟨m', hm1, hm2, hm3⟩ := C45_block_roundtrip sym hsym sk
      rw [huniq m' hm2] at hm3
      simp only [SecMaterial.open_, RsaPair.holder]
      rw [if_pos (by left; rfl)]
      unfold rsaDecryptKey
      rw [d1]
      simp only [except_bind_ok]
      rw [if_neg (by rw [(hworks r hr).len _ (hfit r hr)]; simp), (hworks r hr).inv _ (hfit r hr)]
      exact hm3

/-- Padding in the manner of PKCS#1 (with a fixed padding octet, and without any encryption), and its removal. -/
def padTo (k : Nat) (m : Bytes) : Bytes := List.replicate (k - m.length - 1) 2 ++ 0 :: m
def unpad (m : Bytes) : Option Bytes := if m.head? = some 2 then some ((m.dropWhile (· == 2)).drop 1) else none

theorem dropWhile_replicate (n : Nat) (m : Bytes) : (List.replicate n 2 ++ 0 :: m).dropWhile (· == 2) = 0 :: m := by
  induction n with
  | zero => simp [List.dropWhile]
  | succ n ih => simpa [List.replicate_succ, List.dropWhile] using ih

theorem padTo_inv {k : Nat} {m : Bytes} (h : m.length + 2 ≤ k) : unpad (padTo k m) = some m ∧ (padTo k m).length = k := by
  have h2 : (padTo k m).head? = some 2 := by
    unfold padTo
    rw [show k - m.length - 1 = (k - m.length - 2) + 1 by omega, List.replicate_succ]; rfl
  refine ⟨?_, ?_⟩
  · simp only [unpad, h2, if_true]
    unfold padTo
    rw [dropWhile_replicate]; rfl
  · simp only [padTo, List.length_append, List.length_replicate, List.length_cons]; omega

theorem padTo_works (id : Bytes) (h : id.length = 8) (k : Nat) : RsaPair.Works ⟨id, padTo k, unpad, k⟩ :=
  ⟨h, fun _ hm => (padTo_inv (Nat.le_trans (Nat.add_le_add_left (by decide) _) hm)).1,
    fun _ hm => (padTo_inv (Nat.le_trans (Nat.add_le_add_left (by decide) _) hm)).2⟩

/-- A text for two key pairs, one of them hidden, with moduli of 64 and of 128 octets. -/
example := C81_every_recipient_opens_partial toyCiphers toyDigest Nat.log2 (fun _ _ _ => rfl) (fun _ => .ok []) (fun _ _ _ c => .ok c) (fun _ => .ok ()) (fun _ _ => rfl)
  (fun d => by simp [toyDigest]) (.literal true (.text "hello".toList) "a.txt".toList 5) (.single _ (.text _ _ _ (by decide) (by decide) (by decide)))
  [⟨.new, 11, [0x75, 5, 97, 46, 116, 120, 116, 0, 0, 0, 5, 104, 101, 108, 108, 111]⟩] [⟨.new, .literal ⟨0x75, "a.txt".toList, .datetime 5, .text "hello".toList⟩⟩]
  rfl rfl (by intro r hr; rw [List.mem_singleton] at hr; subst hr; exact .inl ⟨rfl, by decide, by decide, by decide⟩)
  9 16 (by decide) (List.replicate 32 7) (List.replicate 16 9) ⟨rfl, by decide, rfl, fun b h => by simp [toyCiphers, h]⟩ rfl
  [0xcb, 16, 0x75, 5, 97, 46, 116, 120, 116, 0, 0, 0, 5, 104, 101, 108, 108, 111] rfl (by decide)
  [⟨List.replicate 8 1, padTo 64, unpad, 64⟩] [⟨List.replicate 8 3, padTo 128, unpad, 128⟩] (by simp)
  (by intro r hr; simp only [List.singleton_append, List.mem_cons, List.not_mem_nil, or_false] at hr; rcases hr with rfl | rfl <;> exact padTo_works _ rfl _)
  (by simp) _ rfl
  (by intro r hr; simp only [List.singleton_append, List.mem_cons, List.not_mem_nil, or_false] at hr; rcases hr with rfl | rfl <;> exact ⟨2, _, rfl, by decide⟩)
  (by intro r hr; simp only [List.singleton_append, List.mem_cons, List.not_mem_nil, or_false] at hr; rcases hr with rfl | rfl <;> exact ⟨by decide +kernel, rfl⟩)
  (by simp)

/-- C81: nobody else opens it: a secret key that refuses each of the ciphertexts gets ValueError. -/
theorem C81_others_refused (S : BlockCiphers) (H : Digest) (op : Nat → Bytes → Bytes → Bytes → Py Bytes) (accept : RawPacket → Py Unit)
    (keys : List (HeaderFormat × PkEsk)) (h : ∀ x ∈ keys, x.2.alg = 1 ∨ x.2.alg = 2 ∨ x.2.alg = 3) (dec : Bytes → Option Bytes) (k : Nat)
    (single : Bytes → Py (Nat × Bytes))
    (hc : ∀ x ∈ keys, ∃ c, mpiSlices x.2.esk x.2.esk.length 0 = .ok [c] ∧ (c.length ≠ k ∨ dec c = none))
    (integrity : Bool) (v : Option Nat) (data : Option Bytes) :
    (Msg.encrypted (keys.map fun x => .pub x.1 x.2) integrity v data).getMessage S H op accept
      (.secretKey false (SecMaterial.rsa dec k single).open_) = .error .valueError := by
  refine (C38_secret_key S H op accept _ keys integrity v data).1 ?_
  intro x hx
  obtain ⟨c, h1, h2⟩ := hc x hx
  simp only [SecMaterial.open_]
  rw [if_pos (h x hx)]
  unfold rsaDecryptKey
  rw [h1]
  simp only [except_bind_ok]
  rcases h2 with h2 | h2
  · rw [if_pos h2]
  · rw [h2]; split <;> rfl

/-- C81 (refuted): if the RSA ciphertext of the session key happens to begin with a zero octet (one time in 256), the message is made but its
only recipient cannot open it: ValueError. -/
theorem C81_leading_zero_refuted (S : BlockCiphers) (H : Digest) (fl : Nat → Nat) (o : Nat → Py Bytes)
    (op : Nat → Bytes → Bytes → Bytes → Py Bytes) (accept : RawPacket → Py Unit) (m : Msg) (sym : Nat) (hsym : sym < 256) (sk iv : Bytes)
    (r : RsaPair) (hr : r.Works) (hroom : sk.length + 14 ≤ r.k) (single : Bytes → Py (Nat × Bytes))
    (hzero : ∀ block, SessionBlock (UInt8.ofNat sym) sk block → ∃ b, r.enc block = 0 :: b ∧ (beNat b ≠ 0 → OctetLog fl (beNat b))) (e : Msg)
    (he : publicKeyEncrypt S H fl o m sym (some r.recipient) none none sk iv true = .ok e) :
    e.getMessage S H op accept (.secretKey false (r.holder single).open_) = .error .valueError := by
  obtain ⟨block, hb1, hb2, -⟩ := C45_block_roundtrip sym hsym sk
  obtain ⟨b, hb, hfl⟩ := hzero block hb2
  have hlen := hr.len block (by
    have : block.length = sk.length + 3 := by
      unfold SessionBlock at hb2
      rw [hb2]; simp [beBytes_length]
    omega)
  rw [hb, List.length_cons] at hlen
  obtain ⟨esk, c1, c2⟩ := C45_rsa_leading_zero fl r.enc r.dec r.k sym hsym sk b
    (fun m hm => by rw [hb1] at hm; cases hm; exact hb) hlen hfl
  have hk : [r.recipient].mapM (newPubSessKey fl sym sk false) = .ok [.pub .new ⟨3, some (hexText r.id), 1, esk⟩] := by
    simp only [List.mapM_cons, List.mapM_nil, newPubSessKey, Recipient.encryptKey, RsaPair.recipient, true_or, if_true, c1,
      except_bind_ok, except_pure, publicKeySessionKeyPacket]
  simp only [publicKeyEncrypt, hk, except_bind_ok, Option.getD_none, List.mapM_nil, except_pure] at he
  obtain ⟨w, hw, he⟩ := except_bind_eq_ok.mp he
  obtain ⟨c, hc, he⟩ := except_bind_eq_ok.mp he
  cases he
  exact C38_secret_key S H op accept (r.holder single).open_ [(.new, ⟨3, some (hexText r.id), 1, esk⟩)] true (some 1) c |>.1 (by
    intro x hx
    rw [List.mem_singleton] at hx
    subst hx
    simp only [SecMaterial.open_, RsaPair.holder, true_or, if_true]
    exact c2)

/-- A recipient whose ciphertexts all begin with a zero octet. -/
example (e : Msg) := C81_leading_zero_refuted toyCiphers toyDigest Nat.log2 (fun _ => .ok []) (fun _ _ _ c => .ok c) (fun _ => .ok ())
  (.literal true (.text "hello".toList) "a.txt".toList 5) 9 (by decide) (List.replicate 32 7) (List.replicate 16 9)
  ⟨List.replicate 8 1, fun m => 0 :: padTo 63 m, fun c => unpad (c.drop 1), 64⟩
  ⟨rfl, fun m hm => (padTo_inv (m := m) (k := 63) (by have : m.length + 11 ≤ 64 := hm; omega)).1,
    fun m hm => congrArg (· + 1) (padTo_inv (m := m) (k := 63) (by have : m.length + 11 ≤ 64 := hm; omega)).2⟩
  (by decide) (fun _ => .error .valueError) (fun block h => by cases h; exact ⟨_, rfl, fun _ => ⟨by decide +kernel, rfl⟩⟩) e

/-- C81 (refuted): nothing can be encrypted to an RSA key that is for encryption only (algorithm 2). -/
theorem C81_encrypt_only_refuted (S : BlockCiphers) (H : Digest) (fl : Nat → Nat) (o : Nat → Py Bytes) (m : Msg) (sym : Nat) (sk iv : Bytes)
    (id : List Char) (enc : Bytes → Bytes) (rs : List Recipient) (hidden : Option (List Recipient)) (integrity : Bool) :
    publicKeyEncrypt S H fl o m sym none (some (⟨id, 2, .rsa enc⟩ :: rs)) hidden sk iv integrity =
      .error (.pgp "UnsupportedPublicKeyAlgorithm") := by
  simp only [publicKeyEncrypt, except_bind_ok, List.mapM_cons, newPubSessKey, Recipient.encryptKey]
  rfl

/-- C81 (refuted): the holder of an ElGamal key cannot open a message whose first packet is for an RSA key, though a later one is for it:
AttributeError, whatever the packets and the data. -/
theorem C81_elgamal_after_rsa_refuted (S : BlockCiphers) (H : Digest) (op : Nat → Bytes → Bytes → Bytes → Py Bytes)
    (accept : RawPacket → Py Unit) (f : HeaderFormat) (p : PkEsk) (hp : p.alg = 1 ∨ p.alg = 2 ∨ p.alg = 3) (rest : List SessKey)
    (integrity : Bool) (v : Option Nat) (data : Option Bytes) (key : ElGamal) (inverse : Nat → Nat → Nat) :
    (Msg.encrypted (.pub f p :: rest) integrity v data).getMessage S H op accept
      (.secretKey false (SecMaterial.elgamal key inverse).open_) = .error .attributeError := by
  have : (SecMaterial.elgamal key inverse).open_ p = .error .attributeError := by
    simp only [SecMaterial.open_]; rw [if_pos hp]
  simp only [Msg.getMessage, getMessageLoop, sessionKeyFor, Bool.false_eq_true, if_false, this]
  rfl

/-- C81 (refuted): a message cannot be encrypted to hidden recipients alone, unless an empty list of named recipients is given. -/
theorem C81_hidden_only_refuted (S : BlockCiphers) (H : Digest) (fl : Nat → Nat) (o : Nat → Py Bytes) (m : Msg) (sym : Nat) (sk iv : Bytes)
    (hidden : List Recipient) (integrity : Bool) :
    publicKeyEncrypt S H fl o m sym none none (some hidden) sk iv integrity = .error .typeError := rfl

/-- C81: exactly one of a single key and a list of keys is to be given: with both nothing is made, and a single key counts as a list of one. -/
theorem C81_one_way_of_naming (S : BlockCiphers) (H : Digest) (fl : Nat → Nat) (o : Nat → Py Bytes) (m : Msg) (sym : Nat) (sk iv : Bytes)
    (r : Recipient) (rs : List Recipient) (hidden : Option (List Recipient)) (integrity : Bool) :
    publicKeyEncrypt S H fl o m sym (some r) (some rs) hidden sk iv integrity = .error .typeError ∧
    publicKeyEncrypt S H fl o m sym (some r) none hidden sk iv integrity =
      publicKeyEncrypt S H fl o m sym none (some [r]) hidden sk iv integrity := ⟨rfl, rfl⟩

/-- The size of the two integers of an ElGamal session key. -/
theorem elgamal_esk_length (fl : Nat → Nat) (key : ElGamal) (hfl : ∀ i, 0 < i → i < key.p → LogRoom fl i) (hp : 1 < key.p) (ps : Bytes) (sym : Nat)
    (sk esk : Bytes) (h : elgamalEncryptKey fl key ps sym sk = .ok esk) : esk.length < 16400 := by
  unfold elgamalEncryptKey at h
  obtain ⟨m, _, h⟩ := except_bind_eq_ok.mp h
  obtain ⟨em, _, h⟩ := except_bind_eq_ok.mp h
  obtain ⟨a, ha, h⟩ := except_bind_eq_ok.mp h
  obtain ⟨b, hb, h⟩ := except_bind_eq_ok.mp h
  cases h
  have size : ∀ (i : Nat) (e : Bytes), i < key.p → intToMpi fl i = .ok e → e.length < 8200 := by
    intro i e hi he
    rcases Nat.eq_zero_or_pos i with rfl | h0
    · have : intToMpi fl ((0 : Nat) : Int) = .ok [0, 0] := rfl
      rw [this] at he
      cases he
      decide
    · obtain ⟨c, e', i1, _, hl, _, hl', _⟩ := mpiSlices_step (fl := fl) (hfl i h0 hi) h0
      rw [i1] at he
      cases he
      rcases hfl i h0 hi with h1 | ⟨h1, _⟩
      · omega
      · rw [hl', hl]; unfold octetsFor; omega
  have h1 := size _ a (Nat.mod_lt _ (by omega)) ha
  have h2 := size _ b (Nat.mod_lt _ (by omega)) hb
  rw [List.length_append]
  omega

/-- C81: a message encrypted to one ElGamal key, and sent, is opened by its secret key, and gives the same message. -/
theorem C81_elgamal_opens_partial (S : BlockCiphers) (H : Digest) (fl : Nat → Nat) (hl : LogOnCounts fl)
    (o : Nat → Py Bytes) (op : Nat → Bytes → Bytes → Bytes → Py Bytes) (accept : RawPacket → Py Unit)
    (hacc : ∀ p, p.type = 19 → accept p = .ok ()) (hH : ∀ d, (H 2 d).length = 20) (m : Msg) (hm : Sendable fl m)
    (rs : List RawPacket) (ps : List MPacket)
    (hps : m.toPackets = .ok ps) (hrs : ps.mapM (MPacket.raw fl o) = .ok rs) (hex : ∀ r ∈ rs, Expressible r)
    (sym bl : Nat) (hsym : sym < 256) (sk iv : Bytes) (us : Usable S sym bl sk) (hiv : iv.length = bl)
    (w : Bytes) (hw : m.bytes fl o = .ok w) (hwl : w.length + bl + 25 < 2 ^ 32)
    (id : Bytes) (hid : id.length = 8) (key : ElGamal) (hp : 1 < key.p) (hfl : ∀ i, 0 < i → i < key.p → LogRoom fl i)
    (inverse : Nat → Nat → Nat) (hinv : InverseOk inverse key.p) (pad : Bytes) (hpad : ∀ x ∈ pad, x ≠ 0)
    (hsk : sk.length + 14 ≤ byteLen key.p) (hpl : pad.length = byteLen key.p - (sk.length + 3) - 3) :
    ∃ e data, publicKeyEncrypt S H fl o m sym (some ⟨hexText id, 16, .elgamal key pad⟩) none none sk iv true = .ok e ∧
      e.bytes fl o = .ok data ∧ readMessage accept data = .ok e ∧
      e.getMessage S H op accept (.secretKey false (SecMaterial.elgamal key inverse).open_) = .ok m := by
  obtain ⟨esk, h1, h2⟩ := elgamal_roundtrip fl key hp hfl inverse hinv pad hpad sym hsym sk hsk hpl
  have hlen := elgamal_esk_length fl key hfl hp pad sym sk esk h1
  obtain ⟨e, data, r1, r2, r3, r4⟩ := encrypted_opens S H fl hl o op accept hacc hH m hm rs ps hps hrs hex sym bl sk iv us hiv w hw hwl
    [⟨hexText id, 16, .elgamal key pad⟩] [] (by simp) [esk] [] (.cons h1 .nil) .nil
    (by
      intro r hr
      rw [List.append_nil, List.mem_singleton] at hr
      subst hr
      exact ⟨by show 16 < 256; omega, id, hid, rfl⟩)
    (by
      intro x hx
      rw [List.append_nil, List.mem_singleton] at hx
      subst hx
      omega)
  refine ⟨e, data, ?_, r2, r3, r4 _ [] (⟨hexText id, 16, .elgamal key pad⟩, esk) [] rfl (by simp) ?_⟩
  · rw [← r1]; rfl
  · show (SecMaterial.elgamal key inverse).open_ ⟨3, some (hexText id), 16, esk⟩ = _
    simp only [SecMaterial.open_]
    rw [if_neg (by omega), if_pos trivial]
    exact h2

/-- A modulus of 384 bits. -/
example := C81_elgamal_opens_partial toyCiphers toyDigest Nat.log2 (fun _ _ _ => rfl) (fun _ => .ok []) (fun _ _ _ c => .ok c) (fun _ => .ok ()) (fun _ _ => rfl)
  (fun d => by simp [toyDigest]) (.literal true (.text "hello".toList) "a.txt".toList 5) (.single _ (.text _ _ _ (by decide) (by decide) (by decide)))
  [⟨.new, 11, [0x75, 5, 97, 46, 116, 120, 116, 0, 0, 0, 5, 104, 101, 108, 108, 111]⟩] [⟨.new, .literal ⟨0x75, "a.txt".toList, .datetime 5, .text "hello".toList⟩⟩]
  rfl rfl (by intro r hr; rw [List.mem_singleton] at hr; subst hr; exact .inl ⟨rfl, by decide, by decide, by decide⟩)
  9 16 (by decide) (List.replicate 32 7) (List.replicate 16 9) ⟨rfl, by decide, rfl, fun b h => by simp [toyCiphers, h]⟩ rfl
  [0xcb, 16, 0x75, 5, 97, 46, 116, 120, 116, 0, 0, 0, 5, 104, 101, 108, 108, 111] rfl (by decide)
  (List.replicate 8 1) rfl ⟨2 ^ 383 + 187, 5, 7, 11⟩ (by decide +kernel)
  (fun i _ h => logRoom_of_exact rfl (Nat.lt_trans h (Nat.lt_of_lt_of_le (show 2 ^ 383 + 187 < 2 ^ 384 by decide +kernel) (Nat.pow_le_pow_right (by decide) (by decide)))))
  _ (inverse_exists _ (by decide +kernel)) (List.replicate 10 1) (fun x hx => by rw [List.eq_of_mem_replicate hx]; decide) (by decide +kernel) (by decide +kernel)

/-- C81: a message encrypted to one ElGamal key and any number of RSA keys, and sent, is opened by each of the secret keys, and gives the same
message, if the ElGamal key is the first of the keys. (If no ciphertext for an RSA key begins with a zero octet, and each RSA key refuses the
ciphertexts made for the RSA keys before it.) -/
theorem C81_elgamal_first_partial (S : BlockCiphers) (H : Digest) (fl : Nat → Nat) (hl : LogOnCounts fl)
    (o : Nat → Py Bytes) (op : Nat → Bytes → Bytes → Bytes → Py Bytes) (accept : RawPacket → Py Unit)
    (hacc : ∀ p, p.type = 19 → accept p = .ok ()) (hH : ∀ d, (H 2 d).length = 20) (m : Msg) (hm : Sendable fl m)
    (rs : List RawPacket) (ps : List MPacket)
    (hps : m.toPackets = .ok ps) (hrs : ps.mapM (MPacket.raw fl o) = .ok rs) (hex : ∀ r ∈ rs, Expressible r)
    (sym bl : Nat) (hsym : sym < 256) (sk iv : Bytes) (us : Usable S sym bl sk) (hiv : iv.length = bl)
    (w : Bytes) (hw : m.bytes fl o = .ok w) (hwl : w.length + bl + 25 < 2 ^ 32)
    (id : Bytes) (hid : id.length = 8) (key : ElGamal) (hp : 1 < key.p) (hfle : ∀ i, 0 < i → i < key.p → LogRoom fl i)
    (inverse : Nat → Nat → Nat) (hinv : InverseOk inverse key.p) (pad : Bytes) (hpad : ∀ x ∈ pad, x ≠ 0)
    (hsk : sk.length + 14 ≤ byteLen key.p) (hpl : pad.length = byteLen key.p - (sk.length + 3) - 3)
    (named hidden : List RsaPair) (hworks : ∀ r ∈ named ++ hidden, r.Works)
    (hroom : ∀ r ∈ named ++ hidden, sk.length + 14 ≤ r.k)
    (block : Bytes) (hblock : SessionBlock (UInt8.ofNat sym) sk block)
    (hzero : ∀ r ∈ named ++ hidden, ∃ x b, r.enc block = x :: b ∧ x ≠ 0)
    (hfl : ∀ r ∈ named ++ hidden, OctetLog fl (beNat (r.enc block)))
    (hother : (named ++ hidden).Pairwise fun a b => a.k ≠ b.k ∨ b.dec (a.enc block) = none) :
    ∃ e data, publicKeyEncrypt S H fl o m sym none (some (⟨hexText id, 16, .elgamal key pad⟩ :: named.map (·.recipient)))
        (some (hidden.map (·.recipient))) sk iv true = .ok e ∧
      e.bytes fl o = .ok data ∧ readMessage accept data = .ok e ∧
      e.getMessage S H op accept (.secretKey false (SecMaterial.elgamal key inverse).open_) = .ok m ∧
      ∀ r ∈ named ++ hidden, ∀ single, e.getMessage S H op accept (.secretKey false (r.holder single).open_) = .ok m := by
  obtain ⟨eg, g1, ⟨ga, gb, g2⟩, g3⟩ := elgamal_esk fl key hp hfle inverse hinv pad hpad sym hsym sk hsk hpl
  have glen := elgamal_esk_length fl key hfle hp pad sym sk eg g1
  have huniq : ∀ m, SessionBlock (UInt8.ofNat sym) sk m → m = block := by
    intro m hm
    unfold SessionBlock at hm hblock
    rw [hm, hblock]
  have hfit : ∀ r ∈ named ++ hidden, block.length + 11 ≤ r.k := by
    intro r hr
    have := hroom r hr
    have : block.length = sk.length + 3 := by
      unfold SessionBlock at hblock
      rw [hblock]; simp [beBytes_length]
    omega
  obtain ⟨es1, a1, a2, a3⟩ := rsa_esks fl sym hsym sk block huniq named (fun r hr => hworks r (List.mem_append_left _ hr))
    (fun r hr => hfit r (List.mem_append_left _ hr)) (fun r hr => hzero r (List.mem_append_left _ hr)) (fun r hr => hfl r (List.mem_append_left _ hr))
  obtain ⟨es2, b1, b2, b3⟩ := rsa_esks fl sym hsym sk block huniq hidden (fun r hr => hworks r (List.mem_append_right _ hr))
    (fun r hr => hfit r (List.mem_append_right _ hr)) (fun r hr => hzero r (List.mem_append_right _ hr)) (fun r hr => hfl r (List.mem_append_right _ hr))
  obtain ⟨e, data, r1, r2, r3, r4⟩ := encrypted_opens S H fl hl o op accept hacc hH m hm rs ps hps hrs hex sym bl sk iv us hiv w hw hwl
    (⟨hexText id, 16, .elgamal key pad⟩ :: named.map (·.recipient)) (hidden.map (·.recipient)) (by simp) (eg :: es1) es2 (.cons g1 a1) b1
    (by
      intro r hr
      rw [List.cons_append, List.mem_cons] at hr
      rcases hr with rfl | hr
      · exact ⟨by show 16 < 256; omega, id, hid, rfl⟩
      · rw [← List.map_append] at hr
        obtain ⟨p, hp, rfl⟩ := List.mem_map.mp hr
        exact ⟨by show 1 < 256; omega, p.id, (hworks p hp).id, rfl⟩)
    (by
      intro e he
      rw [List.cons_append, List.mem_cons] at he
      rcases he with rfl | he
      · omega
      · rcases List.mem_append.mp he with h | h
        · have := a3 e h; omega
        · have := b3 e h; omega)
  rw [List.cons_append, List.cons_append, List.zip_cons_cons] at r4
  refine ⟨e, data, r1, r2, r3, ?_, ?_⟩
  · refine r4 _ [] (⟨hexText id, 16, .elgamal key pad⟩, eg) _ rfl (by simp) ?_
    show (SecMaterial.elgamal key inverse).open_ ⟨3, some (hexText id), 16, eg⟩ = _
    simp only [SecMaterial.open_]
    rw [if_neg (by omega), if_pos trivial]
    exact g3
  intro r hr single
  have hall := forall₂_append a2 b2
  rw [← List.map_append] at r4
  obtain ⟨pre, post, hsplit⟩ := List.append_of_mem hr
  rw [hsplit] at hall
  obtain ⟨ep, et, c1, c2, c3⟩ := forall₂_append_left hall
  cases c2 with
  | @cons _ ex _ ep' d1 d2 =>
    refine r4 (r.holder single).open_ ((⟨hexText id, 16, .elgamal key pad⟩, eg) :: List.zip (pre.map (·.recipient)) ep) (r.recipient, ex)
      (List.zip (post.map (·.recipient)) ep') ?_ ?_ ?_
    · rw [hsplit, c3, List.map_append, List.map_cons, List.zip_append (by rw [List.length_map]; exact c1.length_eq), List.zip_cons_cons,
        List.cons_append]
    · intro y hy
      rcases List.mem_cons.mp hy with rfl | hy
      · show (r.holder single).open_ ⟨3, some (hexText id), 16, eg⟩ = _
        simp only [SecMaterial.open_, RsaPair.holder]
        rw [if_neg (by omega), if_pos trivial, g2]
        rfl
      obtain ⟨p, hp, hpe⟩ := mem_zip_forall₂ c1 (f := (·.recipient)) hy
      have hpair : p.k ≠ r.k ∨ r.dec (p.enc block) = none := by
        rw [hsplit] at hother
        exact (List.pairwise_append.mp hother).2.2 p hp.1 r (by simp)
      have hpw := hworks p (by rw [hsplit]; simp [hp.1])
      simp only [SecMaterial.open_, RsaPair.holder]
      rw [if_pos (by left; rw [hp.2]; rfl)]
      unfold rsaDecryptKey
      rw [hpe]
      simp only [except_bind_ok]
      rcases hpair with h | h
      · rw [if_pos (by rw [hpw.len _ (hfit p (by rw [hsplit]; simp [hp.1]))]; exact h)]
      · rw [h]
        split <;> rfl
    · obtain ⟨m', hm1, hm2, hm3⟩ := C45_block_roundtrip sym hsym sk
      rw [huniq m' hm2] at hm3
      simp only [SecMaterial.open_, RsaPair.holder]
      rw [if_pos (by left; rfl)]
      unfold rsaDecryptKey
      rw [d1]
      simp only [except_bind_ok]
      rw [if_neg (by rw [(hworks r hr).len _ (hfit r hr)]; simp), (hworks r hr).inv _ (hfit r hr)]
      exact hm3

/-- A modulus of 384 bits for ElGamal, and two RSA keys, one of them hidden. -/
example := C81_elgamal_first_partial toyCiphers toyDigest Nat.log2 (fun _ _ _ => rfl) (fun _ => .ok []) (fun _ _ _ c => .ok c) (fun _ => .ok ()) (fun _ _ => rfl)
  (fun d => by simp [toyDigest]) (.literal true (.text "hello".toList) "a.txt".toList 5) (.single _ (.text _ _ _ (by decide) (by decide) (by decide)))
  [⟨.new, 11, [0x75, 5, 97, 46, 116, 120, 116, 0, 0, 0, 5, 104, 101, 108, 108, 111]⟩] [⟨.new, .literal ⟨0x75, "a.txt".toList, .datetime 5, .text "hello".toList⟩⟩]
  rfl rfl (by intro r hr; rw [List.mem_singleton] at hr; subst hr; exact .inl ⟨rfl, by decide, by decide, by decide⟩)
  9 16 (by decide) (List.replicate 32 7) (List.replicate 16 9) ⟨rfl, by decide, rfl, fun b h => by simp [toyCiphers, h]⟩ rfl
  [0xcb, 16, 0x75, 5, 97, 46, 116, 120, 116, 0, 0, 0, 5, 104, 101, 108, 108, 111] rfl (by decide)
  (List.replicate 8 1) rfl ⟨2 ^ 383 + 187, 5, 7, 11⟩ (by decide +kernel)
  (fun i _ h => logRoom_of_exact rfl (Nat.lt_trans h (Nat.lt_of_lt_of_le (show 2 ^ 383 + 187 < 2 ^ 384 by decide +kernel) (Nat.pow_le_pow_right (by decide) (by decide)))))
  _ (inverse_exists _ (by decide +kernel)) (List.replicate 10 1) (fun x hx => by rw [List.eq_of_mem_replicate hx]; decide) (by decide +kernel) (by decide +kernel)
  [⟨List.replicate 8 1, padTo 64, unpad, 64⟩] [⟨List.replicate 8 3, padTo 128, unpad, 128⟩]
  (by intro r hr; simp only [List.singleton_append, List.mem_cons, List.not_mem_nil, or_false] at hr; rcases hr with rfl | rfl <;> exact padTo_works _ rfl _)
  (by simp) _ rfl
  (by intro r hr; simp only [List.singleton_append, List.mem_cons, List.not_mem_nil, or_false] at hr; rcases hr with rfl | rfl <;> exact ⟨2, _, rfl, by decide⟩)
  (by intro r hr; simp only [List.singleton_append, List.mem_cons, List.not_mem_nil, or_false] at hr; rcases hr with rfl | rfl <;> exact ⟨by decide +kernel, rfl⟩)
  (by simp)

/-- C53 (refuted): naming some recipients and hiding others makes the very message that naming all of them makes. -/
theorem C53_hidden_as_named_refuted (S : BlockCiphers) (H : Digest) (fl : Nat → Nat) (o : Nat → Py Bytes) (m : Msg) (sym : Nat) (sk iv : Bytes)
    (named hidden : List Recipient) (integrity : Bool) :
    publicKeyEncrypt S H fl o m sym none (some named) (some hidden) sk iv integrity =
      publicKeyEncrypt S H fl o m sym none (some (named ++ hidden)) none sk iv integrity := by
  have h : newPubSessKey fl sym sk true = newPubSessKey fl sym sk false := rfl
  simp only [publicKeyEncrypt, except_bind_ok, Option.getD_some, Option.getD_none, List.mapM_nil, except_pure, List.append_nil, h, List.mapM_append,
    bind_assoc]

/-- C53 (refuted): whoever is sent the message reads in it the key id of every recipient, named or hidden, in order. -/
theorem C53_ids_in_message_refuted (S : BlockCiphers) (H : Digest) (fl : Nat → Nat) (o : Nat → Py Bytes) (m : Msg) (sym : Nat) (sk iv : Bytes)
    (named hidden : List Recipient) (integrity : Bool) (e : Msg)
    (he : publicKeyEncrypt S H fl o m sym none (some named) (some hidden) sk iv integrity = .ok e) :
    ∃ (packets : List PkEsk) (v : Option Nat) (data : Option Bytes), e = .encrypted (packets.map fun p => .pub .new p) integrity v data ∧
      packets.map (·.keyId) = (named ++ hidden).map fun r => some r.keyId := by
  rw [C53_hidden_as_named_refuted] at he
  simp only [publicKeyEncrypt, except_bind_ok, Option.getD_none, List.mapM_nil, except_pure, List.append_nil] at he
  obtain ⟨ks, hk, he⟩ := except_bind_eq_ok.mp he
  obtain ⟨w, -, he⟩ := except_bind_eq_ok.mp he
  obtain ⟨c, -, he⟩ := except_bind_eq_ok.mp he
  cases he
  have : ∀ (l : List Recipient) ks, l.mapM (newPubSessKey fl sym sk false) = .ok ks →
      ∃ packets : List PkEsk, ks = packets.map (fun p => .pub .new p) ∧ packets.map (·.keyId) = l.map fun r => some r.keyId := by
    intro l
    induction l with
    | nil => intro ks h; cases h; exact ⟨[], rfl, rfl⟩
    | cons r l ih =>
      intro ks h
      rw [List.mapM_cons] at h
      obtain ⟨k, hk, h⟩ := except_bind_eq_ok.mp h
      obtain ⟨ks', hks, h⟩ := except_bind_eq_ok.mp h
      cases h
      obtain ⟨ps, rfl, h2⟩ := ih _ hks
      unfold newPubSessKey at hk
      obtain ⟨esk, -, hk⟩ := except_bind_eq_ok.mp hk
      cases hk
      exact ⟨publicKeySessionKeyPacket 3 r.keyId r.alg esk false :: ps, rfl, by rw [List.map_cons, List.map_cons, h2]; rfl⟩
  obtain ⟨packets, rfl, h⟩ := this _ _ hk
  exact ⟨packets, _, _, rfl, h⟩

/-- A text for two recipients, the second of them hidden. -/
example := C53_ids_in_message_refuted toyCiphers toyDigest Nat.log2 (fun _ => .ok []) (.literal true (.text "hello".toList) "a.txt".toList 5) 9
  (List.replicate 32 7) (List.replicate 16 9) [⟨hexText (List.replicate 8 1), 1, .other (.ok [0, 1, 1])⟩] [⟨hexText (List.replicate 8 3), 1, .other (.ok [0, 1, 1])⟩]
  true _ rfl

/-- C61 (refuted): a message encrypted to an ElGamal key is opened with any secret exponent at all, so by anybody who has the public key. -/
theorem C61_anybody_opens_refuted (S : BlockCiphers) (H : Digest) (fl : Nat → Nat) (hl : LogOnCounts fl)
    (o : Nat → Py Bytes) (op : Nat → Bytes → Bytes → Bytes → Py Bytes) (accept : RawPacket → Py Unit)
    (hacc : ∀ p, p.type = 19 → accept p = .ok ()) (hH : ∀ d, (H 2 d).length = 20) (m : Msg) (hm : Sendable fl m)
    (rs : List RawPacket) (ps : List MPacket)
    (hps : m.toPackets = .ok ps) (hrs : ps.mapM (MPacket.raw fl o) = .ok rs) (hex : ∀ r ∈ rs, Expressible r)
    (sym bl : Nat) (hsym : sym < 256) (sk iv : Bytes) (us : Usable S sym bl sk) (hiv : iv.length = bl)
    (w : Bytes) (hw : m.bytes fl o = .ok w) (hwl : w.length + bl + 25 < 2 ^ 32)
    (id : Bytes) (hid : id.length = 8) (key : ElGamal) (hp : 1 < key.p) (hfl : ∀ i, 0 < i → i < key.p → LogRoom fl i)
    (inverse : Nat → Nat → Nat) (hinv : InverseOk inverse key.p) (pad : Bytes) (hpad : ∀ x ∈ pad, x ≠ 0)
    (hsk : sk.length + 14 ≤ byteLen key.p) (hpl : pad.length = byteLen key.p - (sk.length + 3) - 3) :
    ∃ e, publicKeyEncrypt S H fl o m sym (some ⟨hexText id, 16, .elgamal key pad⟩) none none sk iv true = .ok e ∧
      ∀ anyone, e.getMessage S H op accept (.secretKey false (SecMaterial.elgamal { key with x := anyone } inverse).open_) = .ok m := by
  have hone : ∀ x, ∃ e, publicKeyEncrypt S H fl o m sym (some ⟨hexText id, 16, .elgamal key pad⟩) none none sk iv true = .ok e ∧
      e.getMessage S H op accept (.secretKey false (SecMaterial.elgamal { key with x := x } inverse).open_) = .ok m := by
    intro x
    obtain ⟨e, data, h1, -, -, h4⟩ := C81_elgamal_opens_partial S H fl hl o op accept hacc hH m hm rs ps hps hrs hex sym bl hsym sk iv us hiv w hw hwl
      id hid { key with x := x } hp hfl inverse hinv pad hpad hsk hpl
    exact ⟨e, h1, h4⟩
  obtain ⟨e, h1, -⟩ := hone key.x
  refine ⟨e, h1, fun x => ?_⟩
  obtain ⟨e', h1', h2⟩ := hone x
  rw [h1] at h1'
  cases h1'
  exact h2

/-- A modulus of 384 bits. -/
example := C61_anybody_opens_refuted toyCiphers toyDigest Nat.log2 (fun _ _ _ => rfl) (fun _ => .ok []) (fun _ _ _ c => .ok c) (fun _ => .ok ()) (fun _ _ => rfl)
  (fun d => by simp [toyDigest]) (.literal true (.text "hello".toList) "a.txt".toList 5) (.single _ (.text _ _ _ (by decide) (by decide) (by decide)))
  [⟨.new, 11, [0x75, 5, 97, 46, 116, 120, 116, 0, 0, 0, 5, 104, 101, 108, 108, 111]⟩] [⟨.new, .literal ⟨0x75, "a.txt".toList, .datetime 5, .text "hello".toList⟩⟩]
  rfl rfl (by intro r hr; rw [List.mem_singleton] at hr; subst hr; exact .inl ⟨rfl, by decide, by decide, by decide⟩)
  9 16 (by decide) (List.replicate 32 7) (List.replicate 16 9) ⟨rfl, by decide, rfl, fun b h => by simp [toyCiphers, h]⟩ rfl
  [0xcb, 16, 0x75, 5, 97, 46, 116, 120, 116, 0, 0, 0, 5, 104, 101, 108, 108, 111] rfl (by decide)
  (List.replicate 8 1) rfl ⟨2 ^ 383 + 187, 5, 7, 11⟩ (by decide +kernel)
  (fun i _ h => logRoom_of_exact rfl (Nat.lt_trans h (Nat.lt_of_lt_of_le (show 2 ^ 383 + 187 < 2 ^ 384 by decide +kernel) (Nat.pow_le_pow_right (by decide) (by decide)))))
  _ (inverse_exists _ (by decide +kernel)) (List.replicate 10 1) (fun x hx => by rw [List.eq_of_mem_replicate hx]; decide) (by decide +kernel) (by decide +kernel)

end Pgp.Props
