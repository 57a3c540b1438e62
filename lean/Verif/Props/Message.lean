import Verif.Lemmas.Message
import Verif.Props.EncData
import Verif.Props.Framing
import Verif.Props.SigPackets
import Verif.Props.DataPackets
import Verif.Props.SessionKey
/-
Property theorems C37 (recognising messages), C38 (opening encrypted messages), C66 (messages survive being written and read) and C67
(a message encrypted with a passphrase is opened by it).
-/
namespace Pgp.Props
open Spec

/-! ### C37 -/

/-- C37: a sequence of packets is opened as a message exactly if it is one by the grammar, and as that one. -/
theorem C37_recognition (ps : List MPacket) (m : Msg) : openMessage ps = .ok m ↔ MessageOf ps m := by
  cases ps with
  | nil =>
    simp only [openMessage, reduceCtorEq, false_iff]
    intro h
    generalize hl : ([] : List MPacket) = l at h
    cases h with
    | literal => cases hl
    | compressed => cases hl
    | encrypted esks keys f q rest hk hne => simp at hl
    | encryptedDefault => cases hl
    | signedNothing _ hne _ => exact hne hl.symm
    | signed pre post q m sigs hne hpre _ _ _ => simp at hl
  | cons p ps =>
    obtain ⟨f, b⟩ := p
    have no : ∀ (_ : b.type ∉ [1, 3, 4, 8, 9, 11, 18]), ¬ MessageOf (⟨f, b⟩ :: ps) m := by
      intro ht h
      have hp : ¬ IsOps ⟨f, b⟩ := by rintro ⟨o, ho⟩; dsimp only at ho; rw [ho] at ht; simp [MBody.type] at ht
      generalize hl : (⟨f, b⟩ : MPacket) :: ps = l at h
      cases h with
      | literal f l t rest _ => cases hl; simp [MBody.type] at ht
      | compressed f c rest => cases hl; simp [MBody.type] at ht
      | encrypted esks keys f q rest hk hne =>
        obtain ⟨k, hk⟩ := head_key hl hk hne
        have := keyOf_type hk
        simp only [List.mem_cons, List.not_mem_nil, or_false, not_or] at ht
        dsimp only at this
        omega
      | encryptedDefault f q rest => cases hl; simp [MBody.type] at ht
      | signedNothing _ _ h => exact hp (h _ (by rw [← hl]; simp))
      | signed pre post q m sigs hne hpre _ _ _ => exact hp (head_ops_of_signed hl hne hpre)
    cases b with
    | pkesk _ => exact encrypted_messageOf (by simp [MBody.type])
    | skesk _ => exact encrypted_messageOf (by simp [MBody.type])
    | sed _ => exact encrypted_messageOf (by simp [MBody.type])
    | seipd _ => exact encrypted_messageOf (by simp [MBody.type])
    | sig s =>
      simp only [openMessage, signedLoop, reduceCtorEq, false_iff]
      exact no (by simp [MBody.type])
    | other t =>
      simp only [openMessage, reduceCtorEq, false_iff]
      refine no (fun h => t.2 ?_)
      simp only [MBody.type, List.mem_cons, List.not_mem_nil, or_false] at h ⊢
      omega
    | onePass o =>
      have ho : IsOps ⟨f, .onePass o⟩ := ⟨o, rfl⟩
      simp only [openMessage, signedLoop, signedLoop_none]
      constructor
      · rintro (⟨h, rfl⟩ | ⟨pre, p, post, m, ss, rfl, hpre, hp, hm, hs, rfl⟩)
        · refine .signedNothing _ (by simp) ?_
          intro p hp
          rcases List.mem_cons.mp hp with rfl | hp
          · exact ho
          · exact h p hp
        · refine .signed (⟨f, .onePass o⟩ :: pre) post p m ss (by simp) ?_ hp ((openSingle_messageOf hp).mp hm) hs
          intro p hp
          rcases List.mem_cons.mp hp with rfl | hp
          · exact ho
          · exact hpre p hp
      · intro h
        generalize hl : (⟨f, .onePass o⟩ : MPacket) :: ps = l at h
        cases h with
        | literal f l t rest _ => cases hl
        | compressed f c rest => cases hl
        | encrypted esks keys f q rest hk hne => obtain ⟨k, hk⟩ := head_key hl hk hne; cases hk
        | encryptedDefault f q rest => cases hl
        | signedNothing _ _ h => exact .inl ⟨fun p hp => h p (by rw [← hl]; simp [hp]), rfl⟩
        | signed pre post q m sigs hne hpre hq hm hs =>
          cases pre with
          | nil => exact absurd rfl hne
          | cons x pre =>
            cases hl
            exact .inr ⟨pre, q, post, m, sigs, rfl, fun p hp => hpre p (by simp [hp]), hq, (openSingle_messageOf hq).mpr hm, hs, rfl⟩
    | compressed c =>
      have hp : ¬ IsOps ⟨f, .compressed c⟩ := by rintro ⟨o, ho⟩; cases ho
      simp only [openMessage, Except.ok.injEq]
      constructor
      · rintro rfl; exact .compressed f c ps
      · intro h
        generalize hl : (⟨f, .compressed c⟩ : MPacket) :: ps = l at h
        cases h with
        | literal f l t rest _ => cases hl
        | compressed f c rest => cases hl; rfl
        | encrypted esks keys f q rest hk hne => obtain ⟨k, hk⟩ := head_key hl hk hne; cases hk
        | encryptedDefault f q rest => cases hl
        | signedNothing _ _ h => exact absurd (h _ (by rw [← hl]; simp)) hp
        | signed pre post q m sigs hne hpre _ _ _ => exact absurd (head_ops_of_signed hl hne hpre) hp
    | literal l =>
      have hp : ¬ IsOps ⟨f, .literal l⟩ := by rintro ⟨o, ho⟩; cases ho
      simp only [openMessage, literalMessage_eq_ok]
      constructor
      · rintro ⟨t, ht, rfl⟩; exact .literal f l t ps ht
      · intro h
        generalize hl : (⟨f, .literal l⟩ : MPacket) :: ps = l at h
        cases h with
        | literal f l t rest ht => cases hl; exact ⟨t, ht, rfl⟩
        | compressed f c rest => cases hl
        | encrypted esks keys f q rest hk hne => obtain ⟨k, hk⟩ := head_key hl hk hne; cases hk
        | encryptedDefault f q rest => cases hl
        | signedNothing _ _ h => exact absurd (h _ (by rw [← hl]; simp)) hp
        | signed pre post q m sigs hne hpre _ _ _ => exact absurd (head_ops_of_signed hl hne hpre) hp

/-- C37: everything else raises. -/
theorem C37_others_raise (ps : List MPacket) (h : ∀ m, ¬ MessageOf ps m) : Raises (openMessage ps) := by
  cases hr : openMessage ps with
  | ok m => exact absurd ((C37_recognition ps m).mp hr) (h m)
  | error e => exact ⟨e, rfl⟩

/-- A lone signature packet is not a message. -/
example : ∀ m, ¬ MessageOf [⟨.new, .sig (.v4 4 0 1 8 [] [] [1, 2] [some 5])⟩] m := by
  intro m h
  have := (C37_recognition _ _).mpr h
  cases this

/-- C37 (refuted): a message that is signed in the old way, with the signature packets first, is never opened. -/
theorem C37_signature_first_refuted (f : HeaderFormat) (s : Sig) (ps : List MPacket) :
    openMessage (⟨f, .sig s⟩ :: ps) = .error .typeError := rfl

/-- C37 (refuted): an encrypted message without integrity protection is never opened. -/
theorem C37_unprotected_refuted (esks : List MPacket) (keys : List SessKey) (hk : List.Forall₂ KeyOf esks keys) (f : HeaderFormat)
    (d : Bytes) (rest : List MPacket) : openMessage (esks ++ ⟨f, .sed d⟩ :: rest) = .error .attributeError := by
  have loop : ∀ (esks : List MPacket) (keys keys' : List SessKey), List.Forall₂ KeyOf esks keys → ∀ p ps,
      p :: ps = esks ++ ⟨f, .sed d⟩ :: rest → encryptedLoop keys' p ps = .error .attributeError := by
    intro esks
    induction esks with
    | nil =>
      intro keys keys' _ p ps h
      cases h
      cases rest <;> rfl
    | cons e es ih =>
      intro keys keys' hk p ps h
      cases hk with
      | @cons _ k _ ks h1 h2 =>
      simp only [List.cons_append, List.cons.injEq] at h
      obtain ⟨rfl, rfl⟩ := h
      obtain ⟨q, qs, hq⟩ := List.exists_cons_of_ne_nil (show es ++ ⟨f, .sed d⟩ :: rest ≠ [] by simp)
      rw [hq]
      unfold encryptedLoop
      rw [sessKeyOf_iff.mpr h1]
      exact ih ks _ h2 q qs hq.symm
  cases esks with
  | nil => exact loop [] keys _ hk _ _ rfl
  | cons e es =>
    cases hk with
    | @cons _ k _ ks h1 h2 =>
    have := loop (e :: es) _ [] (.cons h1 h2) e (es ++ ⟨f, .sed d⟩ :: rest) rfl
    cases h1 <;> simpa [openMessage, encryptedFromPackets, MBody.type] using this

example := C37_unprotected_refuted [] [] .nil .new [1, 2, 3] []

/-- C37 (refuted): packets after a literal, compressed or encrypted message are silently ignored, whatever they are. -/
theorem C37_trailing_packets_refuted (ps rest : List MPacket) (m : Msg) (h : MessageOf ps m) (hm : ∀ sigs i op, m ≠ .signed sigs i op) :
    openMessage (ps ++ rest) = .ok m := by
  refine (C37_recognition _ _).mpr ?_
  cases h with
  | literal f l t r ht => exact .literal f l t _ ht
  | compressed f c r => exact .compressed f c _
  | encrypted esks keys f q r hk hne =>
    rw [List.append_assoc, List.cons_append]
    exact .encrypted esks keys f q _ hk hne
  | encryptedDefault f q r => exact .encryptedDefault f q _
  | signedNothing => exact absurd rfl (hm _ _ _)
  | signed => exact absurd rfl (hm _ _ _)

example := C37_trailing_packets_refuted [⟨.new, .literal ⟨0x62, [], .int 5, .octets [1, 2]⟩⟩] [⟨.new, .sig (.v4 4 0 1 8 [] [] [1, 2] [some 5])⟩] _
  (.literal .new ⟨0x62, [], .int 5, .octets [1, 2]⟩ 5 [] rfl) (by intro _ _ _ h; cases h)

/-- C37 (refuted): a signed message that is encrypted to somebody (session key packets under one-pass signature packets) is never
opened. -/
theorem C37_signed_encrypted_refuted (ops : List MPacket) (hne : ops ≠ []) (ho : ∀ p ∈ ops, IsOps p) (p : MPacket) (k : SessKey)
    (hk : KeyOf p k) (rest : List MPacket) : openMessage (ops ++ p :: rest) = .error .attributeError := by
  have loop : ∀ (ops : List MPacket), (∀ p ∈ ops, IsOps p) → ∀ op, signedLoop op [] none (ops ++ p :: rest) = .error .attributeError := by
    intro ops
    induction ops with
    | nil => intro _ op; cases hk <;> rfl
    | cons q qs ih =>
      intro ho op
      obtain ⟨o, hq⟩ := ho q (by simp)
      obtain ⟨f, b⟩ := q
      obtain rfl : b = .onePass o := hq
      exact ih (fun p hp => ho p (by simp [hp])) true
  cases ops with
  | nil => exact absurd rfl hne
  | cons q qs =>
    obtain ⟨o, hq⟩ := ho q (by simp)
    obtain ⟨f, b⟩ := q
    obtain rfl : b = .onePass o := hq
    exact loop (⟨f, .onePass o⟩ :: qs) ho false

example := C37_signed_encrypted_refuted [⟨.new, .onePass ⟨3, 0, 8, 1, "0123456789ABCDEF".toList, 1⟩⟩] (by decide) (by simp [IsOps])
  ⟨.new, .skesk ⟨4, 9, .simple 2 9, none⟩⟩ _ (.sym .new ⟨4, 9, .simple 2 9, none⟩) []

/-- C37 (refuted): one-pass signature packets need not have matching signatures: any number of them without any signature is a "signed"
message, with or without content. -/
theorem C37_unmatched_one_pass_refuted (ops : List MPacket) (hne : ops ≠ []) (ho : ∀ p ∈ ops, IsOps p) (f : HeaderFormat) (c : Compressed) :
    openMessage ops = .ok (.signed [] none true) ∧
    openMessage (ops ++ [⟨f, .compressed c⟩]) = .ok (.signed [] (some (.compressed c.algorithm c.data)) true) :=
  ⟨(C37_recognition _ _).mpr (.signedNothing ops hne ho), (C37_recognition _ _).mpr
    (.signed ops [] _ _ [] hne ho (by rintro ⟨o, h⟩; cases h) (.compressed f c []) .nil)⟩

example : MessageOf [⟨.new, .onePass ⟨3, 0, 8, 1, "0123456789ABCDEF".toList, 1⟩⟩, ⟨.new, .literal ⟨0x62, [], .int 5, .octets [1, 2]⟩⟩,
    ⟨.old, .sig (.v4 4 0 1 8 [] [] [1, 2] [some 5])⟩] (.signed [(.old, .v4 4 0 1 8 [] [] [1, 2] [some 5])]
      (some (.literal false (.octets [1, 2]) [] 5)) true) := by
  refine .signed [_] _ _ _ _ (by simp) (by simp [IsOps]) (by rintro ⟨o, h⟩; cases h) ?_ (.sig .nil)
  exact .literal .new ⟨0x62, [], .int 5, .octets [1, 2]⟩ 5 [] rfl

/-! ### C38 -/

theorem getMessageLoop_eq_ok {α : Type} (get : SessKey → Py (Nat × Option Bytes)) (decrypt : Nat → Option Bytes → Py α) (r : α) :
    ∀ keys, getMessageLoop get decrypt keys = .ok r ↔
      ∃ pre k post a key, keys = pre ++ k :: post ∧ (∀ x ∈ pre, (∃ f p, x = .pub f p) ∧ get x = .error .valueError) ∧
        get k = .ok (a, key) ∧ decrypt a key = .ok r := by
  intro keys
  induction keys with
  | nil => simp [getMessageLoop]
  | cons k ks ih =>
    unfold getMessageLoop
    constructor
    · intro h
      cases hk : get k with
      | ok ak =>
        obtain ⟨a, key⟩ := ak
        rw [hk] at h
        exact ⟨[], k, ks, a, key, rfl, by simp, hk, h⟩
      | error e =>
        rw [hk] at h
        cases k with
        | pub f p =>
          dsimp only at h
          split at h
          · next he =>
            obtain ⟨pre, k', post, a, key, rfl, hpre, h1, h2⟩ := ih.mp h
            refine ⟨.pub f p :: pre, k', post, a, key, rfl, ?_, h1, h2⟩
            intro x hx
            rcases List.mem_cons.mp hx with rfl | hx
            · exact ⟨⟨f, p, rfl⟩, by rw [hk, he]⟩
            · exact hpre x hx
          · cases h
        | sym => cases h
        | default => cases h
    · rintro ⟨pre, k', post, a, key, h, hpre, h1, h2⟩
      cases pre with
      | nil =>
        simp only [List.nil_append, List.cons.injEq] at h
        obtain ⟨rfl, rfl⟩ := h
        rw [h1]; exact h2
      | cons x pre =>
        simp only [List.cons_append, List.cons.injEq] at h
        obtain ⟨rfl, rfl⟩ := h
        obtain ⟨⟨f, p, rfl⟩, he⟩ := hpre k (by simp)
        rw [he]
        dsimp only
        rw [if_pos rfl]
        exact ih.mpr ⟨pre, k', post, a, key, rfl, fun x hx => hpre x (by simp [hx]), h1, h2⟩

/-- C38: an encrypted message opens as `m` exactly if some session key packet yields a key that decrypts the data to `m`, and every
packet before it is a public-key one that the offered key refuses with ValueError. (The property asks for every packet to be tried; the
refuted theorems below say which are not.) -/
theorem C38_opens_iff_partial (S : BlockCiphers) (H : Digest) (op : Nat → Bytes → Bytes → Bytes → Py Bytes) (accept : RawPacket → Py Unit)
    (offer : Offer) (keys : List SessKey) (integrity : Bool) (v : Option Nat) (data : Option Bytes) (m : Msg) :
    (Msg.encrypted keys integrity v data).getMessage S H op accept offer = .ok m ↔
      ∃ pre k post a key, keys = pre ++ k :: post ∧
        (∀ x ∈ pre, (∃ f p, x = .pub f p) ∧ sessionKeyFor S H offer x = .error .valueError) ∧
        sessionKeyFor S H offer k = .ok (a, key) ∧ decryptMessage S H op accept integrity data a key = .ok m :=
  getMessageLoop_eq_ok _ _ _ _

/-- C38: with an unlocked secret key and public-key session keys only, each of which the key either opens or refuses with ValueError, the
first that opens is used, and if there is none the result is ValueError. -/
theorem C38_secret_key (S : BlockCiphers) (H : Digest) (op : Nat → Bytes → Bytes → Bytes → Py Bytes) (accept : RawPacket → Py Unit)
    (dec : PkEsk → Py (Nat × Bytes)) (keys : List (HeaderFormat × PkEsk)) (integrity : Bool) (v : Option Nat) (data : Option Bytes) :
    ((∀ x ∈ keys, dec x.2 = .error .valueError) →
      (Msg.encrypted (keys.map fun x => .pub x.1 x.2) integrity v data).getMessage S H op accept (.secretKey false dec) =
        .error .valueError) ∧
    ∀ pre x post a k, keys = pre ++ x :: post → (∀ y ∈ pre, dec y.2 = .error .valueError) → dec x.2 = .ok (a, k) →
      (Msg.encrypted (keys.map fun x => .pub x.1 x.2) integrity v data).getMessage S H op accept (.secretKey false dec) =
        decryptMessage S H op accept integrity data a (some k) := by
  unfold Msg.getMessage
  constructor
  · intro h
    induction keys with
    | nil => rfl
    | cons x xs ih =>
      simp only [List.map_cons, getMessageLoop, sessionKeyFor, h x (by simp)]
      exact ih (fun y hy => h y (by simp [hy]))
  · intro pre
    induction pre generalizing keys with
    | nil =>
      rintro x post a k rfl _ h
      simp [getMessageLoop, sessionKeyFor, h]
    | cons y ys ih =>
      rintro x post a k rfl hpre h
      simp only [List.cons_append, List.map_cons, getMessageLoop, sessionKeyFor, hpre y (by simp)]
      exact ih _ x post a k rfl (fun z hz => hpre z (by simp [hz])) h

/-- C38 (refuted): if the first session key is a passphrase one, no other is ever tried: the outcome is that of the first alone. So a
message encrypted to two passphrases does not open with the second. -/
theorem C38_second_passphrase_refuted (S : BlockCiphers) (H : Digest) (op : Nat → Bytes → Bytes → Bytes → Py Bytes)
    (accept : RawPacket → Py Unit) (offer : Offer) (alg : Nat) (s2k : S2K) (esk : Option Bytes) (ks : List SessKey) (integrity : Bool)
    (v : Option Nat) (data : Option Bytes) :
    (Msg.encrypted (.sym alg s2k esk :: ks) integrity v data).getMessage S H op accept offer =
      (Msg.encrypted [.sym alg s2k esk] integrity v data).getMessage S H op accept offer := by
  simp only [Msg.getMessage, getMessageLoop]

/-- C38 (refuted): a passphrase does not open a message whose first session key is a public-key one, whatever follows; and a secret key
does not open one whose first session key is a passphrase one; a locked key opens none. -/
theorem C38_mixed_recipients_refuted (S : BlockCiphers) (H : Digest) (op : Nat → Bytes → Bytes → Bytes → Py Bytes)
    (accept : RawPacket → Py Unit) (ks : List SessKey) (integrity : Bool) (v : Option Nat) (data : Option Bytes) (isStr : Bool)
    (pass : Bytes) (f : HeaderFormat) (p : PkEsk) (dec : PkEsk → Py (Nat × Bytes)) (alg : Nat) (s2k : S2K) (esk : Option Bytes) :
    (Msg.encrypted (.pub f p :: ks) integrity v data).getMessage S H op accept (.passphrase isStr pass) = .error .attributeError ∧
    (Msg.encrypted (.sym alg s2k esk :: ks) integrity v data).getMessage S H op accept (.secretKey false dec) = .error .typeError ∧
    (Msg.encrypted (.pub f p :: ks) integrity v data).getMessage S H op accept (.secretKey true dec) = .error .runtimeError :=
  ⟨rfl, rfl, rfl⟩

/-- C38: data that is not integrity protected never decrypts, whatever is offered. -/
theorem C38_unprotected_never_opens (S : BlockCiphers) (H : Digest) (op : Nat → Bytes → Bytes → Bytes → Py Bytes)
    (accept : RawPacket → Py Unit) (offer : Offer) (keys : List SessKey) (v : Option Nat) (data : Option Bytes) :
    Raises ((Msg.encrypted keys false v data).getMessage S H op accept offer) := by
  cases h : (Msg.encrypted keys false v data).getMessage S H op accept offer with
  | error e => exact ⟨e, rfl⟩
  | ok m =>
    obtain ⟨pre, k, post, a, key, _, _, _, hd⟩ := (C38_opens_iff_partial S H op accept offer keys false v data m).mp h
    unfold decryptMessage at hd
    cases data with
    | none => cases hd
    | some d =>
      cases key with
      | none => cases hd
      | some k =>
        dsimp only at hd
        rw [if_neg (by simp)] at hd
        obtain ⟨e, he⟩ := C29_plain_decrypt_raises S op (fun p => do let _ ← parseMBody accept p)
          (fun rs => do let ps ← rs.mapM (parseMPacket accept); openMessage ps) a k d
        rw [he] at hd
        cases hd

/-- C38: an encrypted message without any session key packet opens with the passphrase hashed with MD5 (1) as the key of the cipher IDEA (1), RFC 4880 section
5.7, if the passphrase is given as octets; a text passphrase or a key raises. -/
theorem C38_no_session_key (S : BlockCiphers) (H : Digest) (op : Nat → Bytes → Bytes → Bytes → Py Bytes) (accept : RawPacket → Py Unit) (f : HeaderFormat)
    (q : Seipd) (rest : List MPacket) (p : Bytes) (locked : Bool) (dec : PkEsk → Py (Nat × Bytes)) :
    ∃ m, openMessage (⟨f, .seipd q⟩ :: rest) = .ok m ∧
      m.getMessage S H op accept (.passphrase false p) = (do
        let rs ← decryptIntegrity S H (fun x => do let _ ← parseMBody accept x) 1 (H 1 p) q.data
        let ps ← rs.mapM (parseMPacket accept)
        openMessage ps) ∧
      Raises (m.getMessage S H op accept (.passphrase true p)) ∧ Raises (m.getMessage S H op accept (.secretKey locked dec)) := by
  cases rest <;> exact ⟨_, rfl, rfl, ⟨_, rfl⟩, ⟨_, rfl⟩⟩

/-! ### C66 -/

/-- Session keys whose packets hold everything: an eight-octet key id, octet-sized codes; a passphrase key for the cipher of its
specifier, not longer than that cipher's key. -/
def KeyFits : SessKey → Prop
  | .pub _ p => p.version < 256 ∧ p.alg < 256 ∧ ∃ id : Bytes, id.length = 8 ∧ p.keyId = some (hexText id)
  | .sym alg s2k esk => alg < 256 ∧ Encodable s2k ∧ s2k.sym = alg ∧ ∃ n e, tableKeyOctets alg = some n ∧ esk = some e ∧ e.length ≤ n + 1
  | .default => False

/-- Messages of one packet. -/
inductive SinglePacket : Msg → Prop
  | text (s : Str) (name : Str) (t : Nat) (hn : ∀ c ∈ name, c.toNat < 128) (hl : name.length ≤ 255) (ht : t < 2 ^ 32) :
      SinglePacket (.literal true (.text s) name t)
  | binary (d : Bytes) (name : Str) (t : Nat) (hn : ∀ c ∈ name, c.toNat < 128) (hl : name.length ≤ 255) (ht : t < 2 ^ 32) :
      SinglePacket (.literal false (.octets d) name t)
  | compressed (alg : Nat) (h : alg < 256) (d : Bytes) : SinglePacket (.compressed alg d)

/-- The messages that survive: single-packet messages with ASCII names, integrity protected encrypted messages, and single-packet
messages with at least one version 4 signature, each with an issuer subpacket. -/
inductive Sendable (fl : Nat → Nat) : Msg → Prop
  | single (m : Msg) (h : SinglePacket m) : Sendable fl m
  | encrypted (keys : List SessKey) (hne : keys ≠ []) (hk : ∀ k ∈ keys, KeyFits k) (v : Nat) (hv : v < 256) (d : Bytes) :
      Sendable fl (.encrypted keys true (some v) (some d))
  | signed (m : Msg) (h : SinglePacket m) (sigs : List (HeaderFormat × Sig)) (hne : sigs ≠ []) (hs : ∀ s ∈ sigs, SigOk fl s.2)
      (hi : ∀ s ∈ sigs, ∀ v t p h hs us h2 vs, s.2 = .v4 v t p h hs us h2 vs → issuersOf (hs ++ us) ≠ []) :
      Sendable fl (.signed sigs (some m) true)

/-- The packet `p` is written and read as `p'`. -/
def Reads (fl : Nat → Nat) (o : Nat → Py Bytes) (accept : RawPacket → Py Unit) (p p' : MPacket) : Prop :=
  ∃ r, p.raw fl o = .ok r ∧ r.type ≠ 19 ∧ parseMPacket accept r = .ok p'

theorem reads_of {fl : Nat → Nat} {o : Nat → Py Bytes} {accept : RawPacket → Py Unit} {f : HeaderFormat} {b b' : MBody} {w : Bytes}
    (h : b.content fl o = .ok w) (ht : b.type ≠ 19) (hp : parseMBody accept ⟨f, b.type, w⟩ = .ok b') :
    Reads fl o accept ⟨f, b⟩ ⟨f, b'⟩ := by
  refine ⟨⟨f, b.type, w⟩, ?_, ht, ?_⟩
  · simp only [MPacket.raw, h, except_bind_ok, except_pure]
  · simp only [parseMPacket, hp, except_bind_ok, except_pure]

theorem parseMBody_of (accept : RawPacket → Py Unit) (f : HeaderFormat) (w : Bytes) :
    (∀ x, parsePkEsk w = .ok x → parseMBody accept ⟨f, 1, w⟩ = .ok (.pkesk x)) ∧
    (∀ x, parseSig w = .ok x → parseMBody accept ⟨f, 2, w⟩ = .ok (.sig x)) ∧
    (∀ x, parseSkEsk w = .ok x → parseMBody accept ⟨f, 3, w⟩ = .ok (.skesk x)) ∧
    (∀ x, parseOnePass w = .ok x → parseMBody accept ⟨f, 4, w⟩ = .ok (.onePass x)) ∧
    (∀ x, Compressed.parse w = .ok x → parseMBody accept ⟨f, 8, w⟩ = .ok (.compressed x)) ∧
    (∀ x, Literal.parse w = .ok x → parseMBody accept ⟨f, 11, w⟩ = .ok (.literal x)) ∧
    (∀ x, Seipd.parse w = .ok x → parseMBody accept ⟨f, 18, w⟩ = .ok (.seipd x)) := by
  refine ⟨?_, ?_, ?_, ?_, ?_, ?_, ?_⟩ <;> intro x h <;> simp [parseMBody, h]

theorem key_reads {fl : Nat → Nat} (hl : LogOnCounts fl) (o : Nat → Py Bytes) (accept : RawPacket → Py Unit) {k : SessKey}
    (h : KeyFits k) : ∃ p p', k.toPacket = .ok p ∧ Reads fl o accept p p' ∧ KeyOf p' k := by
  cases k with
  | pub f p =>
    obtain ⟨v, keyId, alg, esk⟩ := p
    obtain ⟨hv, ha, id, hid, hk⟩ := h
    dsimp only at hv ha hk
    subst hk
    obtain ⟨w, h1, h2⟩ := C26_pkesk_roundtrip_partial v alg hv ha id esk hid
    exact ⟨_, ⟨f, .pkesk _⟩, rfl, reads_of (b := .pkesk _) h1 (by simp [MBody.type]) ((parseMBody_of accept f w).1 _ h2), .pub f _⟩
  | sym alg s2k esk =>
    obtain ⟨ha, he, hs, n, e, hn, rfl, hlen⟩ := h
    obtain ⟨w, h1, h2⟩ := C26_skesk_roundtrip_partial fl hl 4 alg n (by omega) ha s2k he hs hn e hlen
    exact ⟨_, ⟨.new, .skesk _⟩, rfl, reads_of (b := .skesk _) h1 (by simp [MBody.type]) ((parseMBody_of accept .new w).2.2.1 _ h2),
      .sym .new ⟨4, alg, s2k, some e⟩⟩
  | default => exact absurd h (by simp [KeyFits])

theorem single_reads (fl : Nat → Nat) (o : Nat → Py Bytes) (accept : RawPacket → Py Unit) {m : Msg} (h : SinglePacket m) :
    ∃ p p', m.toPackets = .ok [p] ∧ Reads fl o accept p p' ∧ ¬ IsOps p' ∧ MessageOf [p'] m := by
  cases h with
  | text s name t hn hl ht =>
    obtain ⟨w, h1, h2⟩ := C54_text_roundtrip 0x75 s (.inl rfl) name hn hl t ht
    exact ⟨_, ⟨.new, .literal _⟩, rfl, reads_of (b := .literal _) h1 (by simp [MBody.type])
      ((parseMBody_of accept .new w).2.2.2.2.2.1 _ h2), (by rintro ⟨o, h⟩; cases h),
      .literal .new ⟨0x75, name, .int t, .text s⟩ t [] rfl⟩
  | binary d name t hn hl ht =>
    obtain ⟨w, h1, h2⟩ := C54_binary_roundtrip 0x62 (by simp) name hn hl t ht d
    exact ⟨_, ⟨.new, .literal _⟩, rfl, reads_of (b := .literal _) h1 (by simp [MBody.type])
      ((parseMBody_of accept .new w).2.2.2.2.2.1 _ h2), (by rintro ⟨o, h⟩; cases h),
      .literal .new ⟨0x62, name, .int t, .octets d⟩ t [] rfl⟩
  | compressed alg ha d =>
    have h1 : (Compressed.mk alg d).content = .ok (UInt8.ofNat alg :: d) := by simp [Compressed.content, byteOf_lt ha]
    have h2 : Compressed.parse (UInt8.ofNat alg :: d) = .ok ⟨alg, d⟩ := by
      simp [Compressed.parse, idx, toNat_ofNat_lt ha]
    exact ⟨_, ⟨.new, .compressed _⟩, rfl, reads_of (b := .compressed _) h1 (by simp [MBody.type])
      ((parseMBody_of accept .new _).2.2.2.2.1 _ h2), (by rintro ⟨o, h⟩; cases h), .compressed .new ⟨alg, d⟩ []⟩

theorem onePass_reads (fl : Nat → Nat) (o : Nat → Py Bytes) (accept : RawPacket → Py Unit) (last : Bool) {s : HeaderFormat × Sig}
    (h : SigOk fl s.2) (hi : ∀ v t p h hs us h2 vs, s.2 = .v4 v t p h hs us h2 vs → issuersOf (hs ++ us) ≠ []) :
    ∃ p p', onePassPacket last s = .ok p ∧ Reads fl o accept p p' ∧ IsOps p' := by
  obtain ⟨f, s⟩ := s
  dsimp only at h hi
  cases h with
  | @v4 t pa ha hs us hash2 values ht hp hh hhs hus hhl hul h2 hv =>
  have hi := hi _ _ _ _ _ _ _ _ rfl
  obtain ⟨id, ids, hids⟩ := List.exists_cons_of_ne_nil hi
  obtain ⟨b, hb1, hb2⟩ : ∃ b : Bytes, b.length = 8 ∧ id = hexOf b := by
    have hm : id ∈ issuersOf (hs ++ us) := by rw [hids]; simp
    unfold issuersOf at hm
    obtain ⟨sub, hsub, hid⟩ := List.mem_filterMap.mp hm
    have hok : SubOk fl sub := by
      rcases List.mem_append.mp hsub with hs' | hs'
      · exact hhs _ hs'
      · exact hus _ hs'
    cases hok with
    | @plain c v hv =>
      cases v <;> simp only [Option.some.injEq, reduceCtorEq] at hid
      subst hid
      exact upperHex_is_hexOf 8 _ hv.2 hv.1
    | embedded => simp at hid
  have hsplit : b = b.take 4 ++ b.drop 4 := (List.take_append_drop 4 b).symm
  obtain ⟨w, h1, h2, _⟩ := C26_onepass_loses_half 3 t ha pa (if last then 0 else 1) (by omega) ht hh hp (by split <;> omega)
    (b.take 4) (b.drop 4) (by simp [hb1]) (by simp [hb1])
  rw [← hsplit, ← hexOf_eq_hexText, ← hb2] at h1
  refine ⟨⟨f, .onePass ⟨3, t, ha, pa, id, if last then 0 else 1⟩⟩, ⟨f, .onePass _⟩, ?_, reads_of (b := .onePass _) h1
    (by simp [MBody.type]) ((parseMBody_of accept f w).2.2.2.1 _ h2), ⟨_, rfl⟩⟩
  simp only [onePassPacket, hids]

theorem onePasses_read (fl : Nat → Nat) (o : Nat → Py Bytes) (accept : RawPacket → Py Unit) : ∀ (sigs : List (HeaderFormat × Sig)),
    (∀ s ∈ sigs, SigOk fl s.2) →
    (∀ s ∈ sigs, ∀ v t p h hs us h2 vs, s.2 = .v4 v t p h hs us h2 vs → issuersOf (hs ++ us) ≠ []) →
    ∃ ps ps', onePassPackets sigs = .ok ps ∧ List.Forall₂ (Reads fl o accept) ps ps' ∧ (∀ p ∈ ps', IsOps p) ∧ ps'.length = sigs.length := by
  intro sigs
  induction sigs with
  | nil => intro _ _; exact ⟨[], [], rfl, .nil, by simp, rfl⟩
  | cons s ss ih =>
    intro hs hi
    obtain ⟨ps, ps', h1, h2, h3, h4⟩ := ih (fun x hx => hs x (by simp [hx])) (fun x hx => hi x (by simp [hx]))
    obtain ⟨p, p', g1, g2, g3⟩ := onePass_reads fl o accept ss.isEmpty (hs s (by simp)) (hi s (by simp))
    refine ⟨p :: ps, p' :: ps', ?_, .cons g2 h2, ?_, by simp [h4]⟩
    · simp only [onePassPackets, g1, h1, except_bind_ok, except_pure]
    · intro q hq
      rcases List.mem_cons.mp hq with rfl | hq
      · exact g3
      · exact h3 q hq

theorem sigs_read (fl : Nat → Nat) (o : Nat → Py Bytes) (accept : RawPacket → Py Unit) : ∀ (sigs : List (HeaderFormat × Sig)),
    (∀ s ∈ sigs, SigOk fl s.2) →
    ∃ ps, sigs.mapM sigPacket = .ok ps ∧ List.Forall₂ (Reads fl o accept) ps ps ∧ SigTail ps sigs := by
  intro sigs
  induction sigs with
  | nil => intro _; exact ⟨[], rfl, .nil, .nil⟩
  | cons s ss ih =>
    intro hs
    obtain ⟨ps, h1, h2, h3⟩ := ih (fun x hx => hs x (by simp [hx]))
    obtain ⟨f, s⟩ := s
    have hok := hs (f, s) (by simp)
    obtain ⟨w, g1, g2⟩ := C25_signature_roundtrip fl s hok
    refine ⟨⟨f, .sig s⟩ :: ps, ?_, .cons (reads_of (b := .sig s) g1 (by simp [MBody.type]) ((parseMBody_of accept f w).2.1 _ g2)) h2, .sig h3⟩
    have : sigPacket (f, s) = .ok ⟨f, .sig s⟩ := by cases hok; rfl
    simp only [List.mapM_cons, this, h1, except_bind_ok, except_pure]

theorem keys_read {fl : Nat → Nat} (hl : LogOnCounts fl) (o : Nat → Py Bytes) (accept : RawPacket → Py Unit) : ∀ (keys : List SessKey),
    (∀ k ∈ keys, KeyFits k) →
    ∃ ps ps', keys.mapM SessKey.toPacket = .ok ps ∧ List.Forall₂ (Reads fl o accept) ps ps' ∧ List.Forall₂ KeyOf ps' keys := by
  intro keys
  induction keys with
  | nil => intro _; exact ⟨[], [], rfl, .nil, .nil⟩
  | cons k ks ih =>
    intro hk
    obtain ⟨ps, ps', h1, h2, h3⟩ := ih (fun x hx => hk x (by simp [hx]))
    obtain ⟨p, p', g1, g2, g3⟩ := key_reads hl o accept (hk k (by simp))
    exact ⟨p :: ps, p' :: ps', by simp only [List.mapM_cons, g1, h1, except_bind_ok, except_pure], .cons g2 h2, .cons g3 h3⟩

/-- Every packet of a sendable message is written and read, and the packets read are that message. -/
theorem sendable_reads {fl : Nat → Nat} (hl : LogOnCounts fl) (o : Nat → Py Bytes) (accept : RawPacket → Py Unit) {m : Msg}
    (h : Sendable fl m) : ∃ ps ps', m.toPackets = .ok ps ∧ List.Forall₂ (Reads fl o accept) ps ps' ∧ openMessage ps' = .ok m := by
  simp only [C37_recognition]
  cases h with
  | single _ h =>
    obtain ⟨p, p', h1, h2, _, h3⟩ := single_reads fl o accept h
    exact ⟨[p], [p'], h1, .cons h2 .nil, h3⟩
  | encrypted keys hne hk v hv d =>
    obtain ⟨ps, ps', h1, h2, h3⟩ := keys_read hl o accept keys hk
    have g1 : (Seipd.mk v d).content = .ok (UInt8.ofNat v :: d) := by simp [Seipd.content, byteOf_lt hv]
    have g2 : Seipd.parse (UInt8.ofNat v :: d) = .ok ⟨v, d⟩ := by simp [Seipd.parse, idx, toNat_ofNat_lt hv]
    have g3 : Reads fl o accept ⟨.new, .seipd ⟨v, d⟩⟩ ⟨.new, .seipd ⟨v, d⟩⟩ :=
      reads_of (b := .seipd _) g1 (by simp [MBody.type]) ((parseMBody_of accept .new _).2.2.2.2.2.2 _ g2)
    refine ⟨ps ++ [⟨.new, .seipd ⟨v, d⟩⟩], ps' ++ [⟨.new, .seipd ⟨v, d⟩⟩], ?_, List.rel_append h2 (.cons g3 .nil),
      .encrypted ps' keys .new ⟨v, d⟩ [] h3 hne⟩
    simp only [Msg.toPackets, h1, encDataPacket, if_true, except_bind_ok, except_pure]
  | signed m h sigs hne hs hi =>
    obtain ⟨ops, ops', h1, h2, h3, h4⟩ := onePasses_read fl o accept sigs hs hi
    obtain ⟨p, p', g1, g2, g3, g4⟩ := single_reads fl o accept h
    obtain ⟨ss, k1, k2, k3⟩ := sigs_read fl o accept sigs hs
    refine ⟨ops ++ [p] ++ ss, ops' ++ [p'] ++ ss, ?_, List.rel_append (List.rel_append h2 (.cons g2 .nil)) k2, ?_⟩
    · simp only [Msg.toPackets, if_true, h1, g1, k1, except_bind_ok, except_pure]
    · rw [List.append_assoc, List.singleton_append]
      refine .signed ops' ss p' m sigs ?_ h3 g3 g4 k3
      rintro rfl
      exact hne (List.length_eq_zero_iff.mp h4.symm)

theorem reads_lists {fl : Nat → Nat} {o : Nat → Py Bytes} {accept : RawPacket → Py Unit} : ∀ {ps ps' : List MPacket},
    List.Forall₂ (Reads fl o accept) ps ps' →
    ∃ rs, ps.mapM (MPacket.raw fl o) = .ok rs ∧ rs.mapM (parseMPacket accept) = .ok ps' ∧
      rs.forM (fun p => do acceptMdc p; let _ ← parseMBody accept p) = .ok () := by
  intro ps ps' h
  induction h with
  | nil => exact ⟨[], rfl, rfl, rfl⟩
  | @cons p p' ps ps' h hs ih =>
    obtain ⟨rs, h1, h2, h3⟩ := ih
    obtain ⟨r, g1, g2, g3⟩ := h
    refine ⟨r :: rs, ?_, ?_, ?_⟩
    · simp only [List.mapM_cons, g1, h1, except_bind_ok, except_pure]
    · simp only [List.mapM_cons, g3, h2, except_bind_ok, except_pure]
    · obtain ⟨b, hb, _⟩ := except_bind_eq_ok.mp g3
      have hm : acceptMdc r = .ok () := by simp [acceptMdc, pyAssert, g2]
      simp only [List.forM, hm, hb, except_bind_ok, except_pure]
      exact h3

/-- C66: a message is written and read back the same, as long as every packet of it fits its header. -/
theorem C66_message_roundtrip_partial (fl : Nat → Nat) (hl : LogOnCounts fl) (o : Nat → Py Bytes) (accept : RawPacket → Py Unit) (m : Msg)
    (h : Sendable fl m) :
    ∃ ps rs, m.toPackets = .ok ps ∧ ps.mapM (MPacket.raw fl o) = .ok rs ∧
      ((∀ r ∈ rs, Expressible r) → ∃ w, m.bytes fl o = .ok w ∧ readMessage accept w = .ok m) := by
  obtain ⟨ps, ps', h1, h2, h3⟩ := sendable_reads hl o accept h
  obtain ⟨rs, g1, g2, _⟩ := reads_lists h2
  refine ⟨ps, rs, h1, g1, fun he => ?_⟩
  obtain ⟨es, k1, k2⟩ := C10_parse_concat_partial rs he
  refine ⟨es.flatten, ?_, ?_⟩
  · simp only [Msg.bytes, h1, g1, joinPackets, k1, except_bind_ok, except_pure]
  · simp only [readMessage, k2, g2, except_bind_ok]
    exact h3

/-- A signature that meets the hypotheses on signatures, and a message that meets those on messages. -/
theorem exMsgSig_ok : SigOk Nat.log2 (.v4 4 0 1 8 [] [.plain false (.issuer "0123456789ABCDEF".toList)] [1, 2] [some 5]) := by
  refine SigOk.v4 (values := [5]) (by decide) (by decide) (by decide) (by simp) ?_ ⟨[], by decide +kernel, by decide⟩
    ⟨[9, 16, 0x01, 0x23, 0x45, 0x67, 0x89, 0xab, 0xcd, 0xef], by decide +kernel, by decide⟩ rfl ?_
  · intro s hs
    rw [List.mem_singleton] at hs
    subst hs
    exact .plain ⟨rfl, by unfold UpperHex; decide⟩
  · intro i hi
    rw [List.mem_singleton] at hi
    subst hi
    exact logRoom_of_exact rfl (Nat.lt_of_lt_of_le (show 5 < 2 ^ 3 by decide) (Nat.pow_le_pow_right (by omega) (by omega)))

example : Sendable Nat.log2 (.signed [(.new, .v4 4 0 1 8 [] [.plain false (.issuer "0123456789ABCDEF".toList)] [1, 2] [some 5])]
    (some (.literal true (.text "hello".toList) "a.txt".toList 5)) true) := by
  refine .signed _ (.text _ _ _ (by decide) (by decide) (by decide)) _ (by simp) ?_ ?_
  · intro s hs
    rw [List.mem_singleton] at hs
    subst hs
    exact exMsgSig_ok
  · intro s hs v t p h hs' us h2 vs he
    rw [List.mem_singleton] at hs
    subst hs
    cases he
    decide

/-- C66: whether literal text was read as `t` or as `u` is lost: it is written as `u`; and everything else as `b`. -/
theorem C66_format_lost_refuted (f : HeaderFormat) (l : Literal) (t : Nat) (rest : List MPacket) (ht : l.time = .int t) :
    ∃ m, openMessage (⟨f, .literal l⟩ :: rest) = .ok m ∧
      m.toPackets = .ok [⟨.new, .literal ⟨if l.dataFormat = 0x75 ∨ l.dataFormat = 0x74 then 0x75 else 0x62, l.filename, .datetime t, l.data⟩⟩] := by
  refine ⟨_, (C37_recognition _ _).mpr (.literal f l t rest ht), ?_⟩
  simp only [Msg.toPackets, literalPacket, decide_eq_true_eq]

example := C66_format_lost_refuted .old ⟨0x6c, ['a'], .int 7, .octets [1, 2]⟩ 7 [] rfl

/-- C66 (refuted): a signed message whose first signature has version 2 or 3, or no issuer subpacket, cannot be written; nor can a message
with the default session key or a signed message without content. -/
theorem C66_unwritable_refuted (f : HeaderFormat) (ss : List (HeaderFormat × Sig)) (m : Option Msg) :
    (∀ v t p h c k h2 vs, (Msg.signed ((f, .v3 v t p h c k h2 vs) :: ss) m true).toPackets = .error .attributeError) ∧
    (∀ v t p h hs us h2 vs, issuersOf (hs ++ us) = [] →
      (Msg.signed ((f, .v4 v t p h hs us h2 vs) :: ss) m true).toPackets = .error .indexError) ∧
    (∀ keys i v d, (Msg.encrypted (.default :: keys) i v d).toPackets = .error .attributeError) ∧
    (Msg.signed [] none true).toPackets = .error .attributeError := by
  refine ⟨fun v t p h c k h2 vs => ?_, fun v t p h hs us h2 vs hi => ?_, fun keys i v d => ?_, ?_⟩
  · unfold Msg.toPackets
    simp only [if_true, onePassPackets, onePassPacket]; rfl
  · unfold Msg.toPackets
    simp only [if_true, onePassPackets, onePassPacket, hi]; rfl
  · unfold Msg.toPackets
    simp only [List.mapM_cons, SessKey.toPacket]; rfl
  · unfold Msg.toPackets; rfl

/-- C66 (refuted): a signed message that was itself signed comes back with all signatures on the innermost message. -/
theorem C66_nested_signatures_refuted (fl : Nat → Nat) (o : Nat → Py Bytes) (accept : RawPacket → Py Unit) (m : Msg) (h : SinglePacket m)
    (inner outer : List (HeaderFormat × Sig)) (hne : outer ≠ []) (hs : ∀ s ∈ outer ++ inner, SigOk fl s.2)
    (hi : ∀ s ∈ outer ++ inner, ∀ v t p h hs us h2 vs, s.2 = .v4 v t p h hs us h2 vs → issuersOf (hs ++ us) ≠ []) :
    ∃ ps ps', (Msg.signed outer (some (.signed inner (some m) true)) true).toPackets = .ok ps ∧ List.Forall₂ (Reads fl o accept) ps ps' ∧
      openMessage ps' = .ok (.signed (inner ++ outer) (some m) true) := by
  obtain ⟨oo, oo', h1, h2, h3, h4⟩ := onePasses_read fl o accept outer (fun s hx => hs s (by simp [hx])) (fun s hx => hi s (by simp [hx]))
  obtain ⟨io, io', i1, i2, i3, i4⟩ := onePasses_read fl o accept inner (fun s hx => hs s (by simp [hx])) (fun s hx => hi s (by simp [hx]))
  obtain ⟨p, p', g1, g2, g3, g4⟩ := single_reads fl o accept h
  obtain ⟨os, k1, k2, k3⟩ := sigs_read fl o accept outer (fun s hx => hs s (by simp [hx]))
  obtain ⟨is, j1, j2, j3⟩ := sigs_read fl o accept inner (fun s hx => hs s (by simp [hx]))
  refine ⟨oo ++ (io ++ [p] ++ is) ++ os, oo' ++ (io' ++ [p'] ++ is) ++ os, ?_,
    List.rel_append (List.rel_append h2 (List.rel_append (List.rel_append i2 (.cons g2 .nil)) j2)) k2, ?_⟩
  · simp only [Msg.toPackets, if_true, h1, g1, k1, i1, j1, except_bind_ok, except_pure]
  · rw [C37_recognition]
    have e : oo' ++ (io' ++ [p'] ++ is) ++ os = (oo' ++ io') ++ p' :: (is ++ os) := by simp
    rw [e]
    refine .signed (oo' ++ io') (is ++ os) p' m _ ?_ ?_ g3 g4 ?_
    · intro hz
      have : oo' = [] := (List.append_eq_nil_iff.mp hz).1
      rw [this] at h4
      exact hne (List.length_eq_zero_iff.mp h4.symm)
    · intro q hq
      rcases List.mem_append.mp hq with hq | hq
      · exact h3 q hq
      · exact i3 q hq
    · clear j1 j2 hs hi i1 i4 e
      induction j3 with
      | nil => exact k3
      | ops hp _ ih => exact .ops hp ih
      | sig _ ih => exact .sig ih

example (accept : RawPacket → Py Unit) := C66_nested_signatures_refuted Nat.log2 (fun _ => .ok []) accept
  (.literal true (.text "hello".toList) "a.txt".toList 5) (.text _ _ _ (by decide) (by decide) (by decide))
  [(.new, .v4 4 0 1 8 [] [.plain false (.issuer "0123456789ABCDEF".toList)] [1, 2] [some 5])]
  [(.new, .v4 4 0 1 8 [] [.plain false (.issuer "0123456789ABCDEF".toList)] [1, 2] [some 5])] (by simp)
  (by intro s hs
      simp only [List.cons_append, List.nil_append, List.mem_cons, List.not_mem_nil, or_false, or_self] at hs
      subst hs
      exact exMsgSig_ok)
  (by intro s hs v t p h hs' us h2 vs he
      simp only [List.cons_append, List.nil_append, List.mem_cons, List.not_mem_nil, or_false, or_self] at hs
      subst hs
      cases he
      decide)

/-- C66 (refuted): RFC 4880 5.4: a zero in the last octet of a one-pass packet says that another one follows for the same data. The
packets written say it exactly of the last one. -/
theorem C66_nested_flag_refuted (pre : List (HeaderFormat × Sig)) (x : HeaderFormat × Sig) (post : List (HeaderFormat × Sig))
    (ps : List MPacket) (h : onePassPackets (pre ++ x :: post) = .ok ps) :
    ∃ f t hh p id, ps[pre.length]? = some ⟨f, .onePass ⟨3, t, hh, p, id, if post = [] then 0 else 1⟩⟩ := by
  induction pre generalizing ps with
  | nil =>
    simp only [List.nil_append, onePassPackets] at h
    obtain ⟨p, hp, h⟩ := except_bind_eq_ok.mp h
    obtain ⟨r, hr, h⟩ := except_bind_eq_ok.mp h
    cases h
    obtain ⟨f, s⟩ := x
    cases s with
    | v3 => cases hp
    | v4 v t pa ha hs us h2 vs =>
      simp only [onePassPacket] at hp
      split at hp
      · cases hp
      · next id _ _ =>
        cases hp
        refine ⟨f, t, ha, pa, id, ?_⟩
        cases post <;> rfl
  | cons y ys ih =>
    simp only [List.cons_append, onePassPackets] at h
    obtain ⟨p, hp, h⟩ := except_bind_eq_ok.mp h
    obtain ⟨r, hr, h⟩ := except_bind_eq_ok.mp h
    cases h
    simpa using ih r hr

example : ∃ ps, onePassPackets [(.new, .v4 4 0 1 8 [] [.plain false (.issuer "0123456789ABCDEF".toList)] [1, 2] [some 5]),
    (.new, .v4 4 0 1 8 [] [.plain false (.issuer "FEDCBA9876543210".toList)] [1, 2] [some 5])] = .ok ps := ⟨_, rfl⟩

/-! ### C67 -/

theorem keyLengths_le {a n : Nat} (h : tableKeyOctets a = some n) : n ≤ 32 := by
  rw [← keyLengths_eq] at h
  unfold keyLengths at h
  split at h <;> cases h <;> omega

theorem s2k_bytes_length {fl : Nat → Nat} (hl : LogOnCounts fl) {s : S2K} (he : Encodable s) :
    ∃ b, s.toBytes fl = .ok b ∧ b.length ≤ 11 := by
  cases s with
  | gnupg a b c d e => exact absurd he id
  | simple h sym => exact ⟨[0, UInt8.ofNat h], by simp [S2K.toBytes, byteOf_lt he], by simp⟩
  | salted h sym salt =>
    obtain ⟨hh, hs⟩ := he
    exact ⟨[1, UInt8.ofNat h] ++ salt, by simp [S2K.toBytes, byteOf_lt hh], by simp [hs]⟩
  | iterated h sym salt count =>
    obtain ⟨hh, hs, c, hc, rfl⟩ := he
    exact ⟨[3, UInt8.ofNat h] ++ salt ++ [UInt8.ofNat c], by simp [S2K.toBytes, byteOf_lt hh, intToS2kCount_value hl hc], by simp [hs]⟩

/-- C67: a message encrypted with a passphrase, written and read, is opened by that passphrase, given as text or as octets, and gives the
same message. `key` is what the specifier makes of the passphrase, `sk` the session key. (For the cipher of the specifier and a session
key not longer than that cipher's.) -/
theorem C67_passphrase_roundtrip_partial (S : BlockCiphers) (H : Digest) (fl : Nat → Nat) (hl : LogOnCounts fl) (o : Nat → Py Bytes)
    (op : Nat → Bytes → Bytes → Bytes → Py Bytes) (accept : RawPacket → Py Unit) (hacc : ∀ p, p.type = 19 → accept p = .ok ())
    (hH : ∀ d, (H 2 d).length = 20) (m : Msg) (hm : Sendable fl m) (rs : List RawPacket) (ps : List MPacket)
    (hps : m.toPackets = .ok ps) (hrs : ps.mapM (MPacket.raw fl o) = .ok rs) (hex : ∀ r ∈ rs, Expressible r)
    (s2k : S2K) (he : Encodable s2k) (bl n : Nat) (isStr : Bool) (pass key sk iv : Bytes) (hk : s2k.toKey H pass = .ok (some key))
    (u : Usable S s2k.sym bl key) (us : Usable S s2k.sym bl sk) (hsym : s2k.sym < 256) (hn : tableKeyOctets s2k.sym = some n) (hsk : sk ≠ [])
    (hlen : sk.length ≤ n) (hiv : iv.length = bl) (w : Bytes) (hw : m.bytes fl o = .ok w) (hwl : w.length + bl + 25 < 2 ^ 32) :
    ∃ e data, symmetricEncrypt S H fl o m s2k.sym pass s2k sk iv true = .ok e ∧ e.bytes fl o = .ok data ∧
      readMessage accept data = .ok e ∧ e.getMessage S H op accept (.passphrase isStr pass) = .ok m := by
  -- the packets of the message
  obtain ⟨ps0, ps', h1, h2, h3⟩ := sendable_reads hl o accept hm
  rw [hps] at h1; cases h1
  obtain ⟨rs0, g1, g2, g3⟩ := reads_lists h2
  rw [hrs] at g1; cases g1
  obtain ⟨es, k1, k2⟩ := C10_parse_concat_partial rs hex
  have hwe : w = es.flatten := by
    simp only [Msg.bytes, hps, hrs, joinPackets, k1, except_bind_ok, except_pure, Except.ok.injEq] at hw
    exact hw.symm
  subst hwe
  have hwne : es.flatten ≠ [] := by
    intro hz
    rw [hz] at k2
    cases k2
    cases g2
    cases h3
  -- the session key
  obtain ⟨e, c1, hel, hcfb⟩ := skEsk_encrypt S H s2k bl s2k.sym pass sk key hk u hsym
  have c4 := skEsk_decrypt S H s2k bl s2k.sym pass sk key e _ hk u hcfb
  rw [toNat_ofNat_lt hsym] at c4
  have c1' : setSessionKey S H s2k s2k.sym pass (some sk) = .ok (some e) := by
    obtain ⟨x, xs, rfl⟩ := List.exists_cons_of_ne_nil hsk
    simp only [setSessionKey, c1, except_bind_ok, except_pure]
  -- the data
  obtain ⟨c, e1, e2, _⟩ := C29_encrypt_standard_partial S H s2k.sym bl sk iv es.flatten us hiv hH
  obtain ⟨c', e1', e3⟩ := C29_integrity_roundtrip_partial S H s2k.sym bl sk iv es.flatten us hiv hH
    (fun p => do let _ ← parseMBody accept p) (by
      intro p hp
      simp only [parseMBody, hp]
      simp [hacc p hp])
  rw [e1] at e1'; cases e1'
  have hsend : Sendable fl (.encrypted [.sym s2k.sym s2k (some e)] true (some 1) (some c)) :=
    .encrypted _ (by simp) (by
      intro k hk
      rw [List.mem_singleton] at hk
      subst hk
      exact ⟨hsym, he, rfl, n, e, hn, rfl, by omega⟩) 1 (by omega) c
  obtain ⟨qs, rs', q1, q2, q3⟩ := C66_message_roundtrip_partial fl hl o accept _ hsend
  obtain ⟨data, q4, q5⟩ := q3 (by
    obtain ⟨sb, b1, b2⟩ := s2k_bytes_length hl he
    have hn32 := keyLengths_le hn
    have t1 : (Msg.encrypted [.sym s2k.sym s2k (some e)] true (some 1) (some c)).toPackets =
        .ok [⟨.new, .skesk ⟨4, s2k.sym, s2k, some e⟩⟩, ⟨.new, .seipd ⟨1, c⟩⟩] := rfl
    rw [t1] at q1; cases q1
    have t2 : (MPacket.mk .new (.skesk ⟨4, s2k.sym, s2k, some e⟩)).raw fl o =
        .ok ⟨.new, 3, [4, UInt8.ofNat s2k.sym] ++ sb ++ e⟩ := by
      simp only [MPacket.raw, MBody.content, SkEsk.content, byteOf_lt hsym, b1, Option.getD_some, except_bind_ok, except_pure, MBody.type,
        byteOf_lt (show 4 < 256 by omega)]
      rfl
    have t3 : (MPacket.mk .new (.seipd ⟨1, c⟩)).raw fl o = .ok ⟨.new, 18, 1 :: c⟩ := rfl
    simp only [List.mapM_cons, List.mapM_nil, t2, t3, except_bind_ok, except_pure, Except.ok.injEq] at q2
    subst q2
    intro r hr
    simp only [List.mem_cons, List.not_mem_nil, or_false] at hr
    rcases hr with rfl | rfl
    · refine .inl ⟨rfl, by simp, by simp, ?_⟩
      simp only [List.length_append, List.length_cons, List.length_nil]; omega
    · refine .inl ⟨rfl, by simp, by simp, ?_⟩
      simp only [List.length_cons]; omega)
  refine ⟨_, data, ?_, q4, q5, ?_⟩
  · simp only [symmetricEncrypt, c1', hw, newEncryptedData, if_neg hwne, if_true, e1, except_bind_ok, except_pure]
  · have hd := (e3 rs).mpr ⟨k2, g3⟩
    simp only [Msg.getMessage, getMessageLoop, sessionKeyFor, c4, decryptMessage, if_true, hd, g2, except_bind_ok]
    exact h3

example : ∃ (S : BlockCiphers) (H : Digest) (key : Bytes) (ps : List MPacket) (rs : List RawPacket) (w : Bytes),
    let m := Msg.literal true (.text "hello".toList) "a.txt".toList 5
    let s2k := S2K.simple 2 9
    let sk : Bytes := List.replicate 32 7
    (∀ d, (H 2 d).length = 20) ∧ Sendable Nat.log2 m ∧ m.toPackets = .ok ps ∧ ps.mapM (MPacket.raw Nat.log2 fun _ => .ok []) = .ok rs ∧
      (∀ r ∈ rs, Expressible r) ∧ Encodable s2k ∧ s2k.toKey H [1, 2, 3] = .ok (some key) ∧ Usable S 9 16 key ∧ Usable S 9 16 sk ∧
      tableKeyOctets 9 = some 32 ∧ sk ≠ [] ∧ sk.length ≤ 32 ∧ m.bytes Nat.log2 (fun _ => .ok []) = .ok w ∧ w.length + 16 + 25 < 2 ^ 32 := by
  refine ⟨⟨fun _ _ b => b, fun _ _ => true⟩, fun _ _ => List.replicate 20 0, List.replicate 32 0,
    [⟨.new, .literal ⟨0x75, "a.txt".toList, .datetime 5, .text "hello".toList⟩⟩],
    [⟨.new, 11, [0x75, 5, 97, 46, 116, 120, 116, 0, 0, 0, 5, 104, 101, 108, 108, 111]⟩],
    [0xcb, 16, 0x75, 5, 97, 46, 116, 120, 116, 0, 0, 0, 5, 104, 101, 108, 108, 111], ?_⟩
  refine ⟨fun _ => by simp, .single _ (.text _ _ _ (by decide) (by decide) (by decide)), by rfl, by rfl, ?_, (by show 2 < 256; decide), by decide +kernel,
    ⟨rfl, by decide, rfl, fun b hb => hb⟩, ⟨rfl, by decide, rfl, fun b hb => hb⟩, rfl, by decide, by decide, by rfl, by decide⟩
  intro r hr
  rw [List.mem_singleton] at hr
  subst hr
  exact .inl ⟨rfl, by decide, by decide, by decide⟩

end Pgp.Props
