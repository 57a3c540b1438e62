import Verif.Model.SignMsg
import Verif.Spec.SignMsg
import Verif.Props.Hashing
import Verif.Props.Message
import Verif.Props.Canon
import Verif.Props.PubEncrypt
import Verif.Props.KeyFile
/-
C95: signed messages end to end. C96: compressed messages. C97: the list of subpackets given to `sign`.
-/
namespace Pgp.Props
open Pgp Pgp.Spec

/-! ### C95: what is covered -/

theorem signable_data {m : Msg} {t : Nat} {b : Bytes} (h : m.signable t = .ok b) : ∃ d, LiteralData m d ∧ (t ≠ 1 → b = d) := by
  cases m with
  | literal text data name ts =>
    cases text <;> cases data <;> simp only [Msg.signable, reduceCtorEq, Except.ok.injEq] at h
    · subst h
      exact ⟨_, .binary _ _ _, fun _ => rfl⟩
    · subst h
      exact ⟨_, .text _ _ _, fun ht => by simp [textSignable, ht]⟩
  | compressed => cases h
  | encrypted => cases h
  | signed => cases h

/-- C95: what is signed, and verified, of a literal message is its data as the standard says, except for line endings in canonical text
signatures: there it is the data if its line endings are canonical. -/
theorem C95_covered_partial (m : Msg) (d : Bytes) (h : LiteralData m d) (t : Nat) (ht : t ≠ 1 ∨ CanonicalLines d) :
    m.signable t = .ok (documentOctets t d) := by
  by_cases h1 : t = 1
  · have hc : CanonicalLines d := ht.resolve_left (fun hn => hn h1)
    have he : canonicalForm d = d := canonicalForm_of_canonR d ((canonR_iff d).mpr hc)
    subst h1
    cases h with
    | text s name ts =>
      simp only [Msg.signable, textSignable, if_true, documentOctets]
      rw [(C46_canonical_iff_partial _).mpr hc]
    | binary d name ts => simp only [Msg.signable, binarySignable, documentOctets, if_true, he]
  · cases h <;> simp only [Msg.signable, textSignable, binarySignable, documentOctets, if_neg h1]

example : Msg.signable 1 (.literal true (.text "a\r\nb".toList) [] 5) = .ok (documentOctets 1 [97, 13, 10, 98]) :=
  C95_covered_partial _ _ (.text "a\r\nb".toList [] 5) 1 (.inr (by rw [← canonR_iff]; simp [canonR, utf8Encode, utf8Char]))

/-- C95 (refuted): whatever else is signed as canonical text is not covered as the standard says: neither text nor octets with a bare CR
or LF. -/
theorem C95_canonical_refuted (m : Msg) (d : Bytes) (h : LiteralData m d) (hc : ¬ CanonicalLines d) :
    m.signable 1 ≠ .ok (documentOctets 1 d) := by
  have hlen := C46_length_refuted d hc
  cases h with
  | text s name ts =>
    simp only [Msg.signable, textSignable, if_true, documentOctets, ne_eq, Except.ok.injEq]
    intro he
    rw [← he] at hlen
    omega
  | binary d name ts =>
    simp only [Msg.signable, binarySignable, if_true, documentOctets, ne_eq, Except.ok.injEq]
    intro he
    rw [← he] at hlen
    omega

example := C95_canonical_refuted (.literal false (.octets [97, 10]) [] 5) _ (.binary [97, 10] [] 5)
  (by rw [← canonR_iff]; simp [canonR])

/-- C95: messages that are not literal cannot be signed: a compressed, encrypted or signed message raises. -/
theorem C95_other_raises (fl : Nat → Nat) (H : Digest) (K : SignKey) (prefs : Py (Got (List Nat))) (m : Msg) (hm : ∀ d, ¬ LiteralData m d)
    (v t : Nat) (h : Option Nat) (op : Bool) (now : Nat) : Raises (m.sign fl H K prefs v t h op now) := by
  cases hr : m.sign fl H K prefs v t h op now with
  | error e => exact ⟨e, rfl⟩
  | ok s =>
    exfalso
    unfold Msg.sign at hr
    obtain ⟨_, _, hr⟩ := except_bind_eq_ok.mp hr
    obtain ⟨sig, hs, hr⟩ := except_bind_eq_ok.mp hr
    unfold signDocument at hs
    split at hs
    · cases hs
    · obtain ⟨_, _, hs⟩ := except_bind_eq_ok.mp hs
      obtain ⟨_, _, hs⟩ := except_bind_eq_ok.mp hs
      obtain ⟨b, hb, hs⟩ := except_bind_eq_ok.mp hs
      obtain ⟨d, hd, _⟩ := signable_data hb
      exact hm d hd

example : ∀ d, ¬ LiteralData (.compressed 1 [1, 2]) d := by intro d h; cases h

/-! ### C95: signing, sending, reading and verifying -/

/-- A signer as the theorems want it: the key's primitives verify what they sign, its id is one, the clock is in range, no RSA signature
string begins with a zero octet, and the logarithm is precise enough for the values. -/
structure Signer (fl : Nat → Nat) (H : Digest) (m : Msg) (K : SignKey) (t h now : Nat) : Prop where
  prims : PrimsCorrect H h K.prims
  id : K.keyId.length = 16 ∧ UpperHex K.keyId
  time : now < 2 ^ 32
  full : K.alg = 1 ∨ K.alg = 3 → ∀ d, m.signable t = .ok d → FullLength fl H K (.document d) t h [] now
  room : ∀ d values, signHash fl K.prims K.alg h d = .ok values → ∀ n ∈ values, LogRoom fl n

theorem signDocument_ok {fl : Nat → Nat} {H : Digest} {K : SignKey} {m : Msg} {v t h now : Nat} {sig : Sig}
    (hs : signDocument fl H K m v t h now = .ok sig) :
    ∃ d, m.signable t = .ok d ∧ signItem fl H K (.document d) v t h [] now = .ok sig := by
  unfold signDocument at hs
  split at hs
  · cases hs
  · obtain ⟨_, _, hs⟩ := except_bind_eq_ok.mp hs
    obtain ⟨_, _, hs⟩ := except_bind_eq_ok.mp hs
    obtain ⟨d, hd, hs⟩ := except_bind_eq_ok.mp hs
    exact ⟨d, hd, hs⟩

theorem signHash_length {fl : Nat → Nat} {P : SigPrims} {alg h : Nat} {d : Bytes} {values : List Nat}
    (hs : signHash fl P alg h d = .ok values) : values.length ≤ 2 := by
  unfold signHash at hs
  split at hs
  · cases hs; simp
  · split at hs
    · cases hs; simp
    · split at hs
      · cases hs; simp
      · cases hs

theorem sigValues_length {fl : Nat → Nat} : ∀ {values : List Nat} {e : Bytes}, (∀ n ∈ values, LogRoom fl n) →
    sigValues fl (values.map some) = .ok e → e.length ≤ 8194 * values.length
  | [], e, _, h => by cases h; simp
  | n :: values, e, hr, h => by
    rw [List.map_cons, sigValues] at h
    obtain ⟨a, ha, h⟩ := except_bind_eq_ok.mp h
    obtain ⟨b, hb, h⟩ := except_bind_eq_ok.mp h
    cases h
    have h2 := sigValues_length (fun x hx => hr x (by simp [hx])) hb
    have h1 : a.length ≤ 8194 := by
      by_cases h0 : n = 0
      · subst h0
        rw [intToMpi_zero] at ha
        cases ha; simp
      · rw [intToMpi_pos fl (Nat.pos_of_ne_zero h0)] at ha
        cases ha
        have := ((hr n (by simp)).resolve_left h0).1
        rw [List.length_append, octetsDown_length, intTo2byte_eq, beBytes_length]
        unfold ceil8
        omega
    rw [List.length_append, List.length_cons]
    omega

/-- A signature made by a signer of a message can be written, is not too long, names its issuer, and verifies. -/
theorem signer_sig {fl : Nat → Nat} {H : Digest} (hH : DigestOk H) {K : SignKey} {m : Msg} {t h now : Nat} {sig : Sig}
    (sr : Signer fl H m K t h now) (hs : signDocument fl H K m 4 t h now = .ok sig) :
    SigOk fl sig ∧ (∀ v t p h hs us h2 vs, sig = .v4 v t p h hs us h2 vs → issuersOf (hs ++ us) ≠ []) ∧
      verifyDocument fl H K m sig = .ok true ∧ ∀ c, sig.content fl = .ok c → 1 ≤ c.length ∧ c.length < 200000 := by
  obtain ⟨d, hd, hi⟩ := signDocument_ok hs
  have hv := C28_sign_verify_partial fl H hH K h sr.prims (.document d) (by intro b hb; cases hb) t [] now sig
    (fun hr => sr.full hr d hd) hi
  have hok := signed_sigOk hH hi sr.id sr.time (by simp) (fun e he => by cases he; decide) sr.room
  obtain ⟨_, _, _, _, a, b, values, hashed, _, _, hh, _, e6, rfl⟩ := sign_shape hi
  rw [if_pos rfl] at hh
  refine ⟨hok, ?_, ?_, ?_⟩
  · intro v' t' p' h' hs' us' h2' vs' he
    cases he
    rw [hh]
    simp [issuersOf]
  · simp only [verifyDocument, hd]
    exact hv
  · intro c hc
    have hval : ∀ e, sigValues fl (values.map some) = .ok e → e.length ≤ 8194 * values.length :=
      fun e => sigValues_length (sr.room _ _ e6)
    have hn := signHash_length e6
    generalize hgen : (H h (a ++ b)).take 2 = h2 at *
    have hlen2 : h2.length ≤ 2 := by rw [← hgen, List.length_take]; omega
    generalize hvs : values.map some = vs at *
    cases hok with
    | v4 ht hp hh' hhs hus hhl hul h2' hv' =>
    obtain ⟨e, he1, he2⟩ := hhl
    rw [Sig.content] at hc
    obtain ⟨_, _, hc⟩ := except_bind_eq_ok.mp hc
    obtain ⟨_, _, hc⟩ := except_bind_eq_ok.mp hc
    obtain ⟨_, _, hc⟩ := except_bind_eq_ok.mp hc
    obtain ⟨_, _, hc⟩ := except_bind_eq_ok.mp hc
    obtain ⟨hd', g1, hc⟩ := except_bind_eq_ok.mp hc
    obtain ⟨ud, g2, hc⟩ := except_bind_eq_ok.mp hc
    obtain ⟨vv, g3, hc⟩ := except_bind_eq_ok.mp hc
    rw [he1] at g1; cases g1
    rw [subsBytes] at g2; cases g2
    cases hc
    have := hval _ g3
    simp only [List.length_append, List.length_cons, List.length_nil, intTo2byte_eq, beBytes_length]
    omega

theorem literal_length {x : UInt8} {name : List Char} {ts : Nat} {data : LitData} {d c : Bytes} (hl : name.length ≤ 255)
    (hlen : d.length < 2 ^ 32 - 2000) (he : data.encode x = .ok d) (hc : (Literal.mk x name (.datetime ts) data).content = .ok c) :
    1 ≤ c.length ∧ c.length ≤ 2 ^ 32 - 1 := by
  have hu : ∀ l : List Char, (utf8Encode l).length ≤ 4 * l.length := by
    intro l
    induction l with
    | nil => simp [utf8Encode]
    | cons a l ih =>
      have h4 : (utf8Char a).length ≤ 4 := by
        unfold utf8Char
        dsimp only
        split
        · simp
        · split
          · simp
          · split <;> simp
      simp only [utf8Encode, List.flatMap_cons, List.length_append, List.length_cons] at ih ⊢
      omega
  unfold Literal.content at hc
  split at hc
  · cases hc
  · obtain ⟨n, _, hc⟩ := except_bind_eq_ok.mp hc
    obtain ⟨tt, _, hc⟩ := except_bind_eq_ok.mp hc
    obtain ⟨body, hb, hc⟩ := except_bind_eq_ok.mp hc
    dsimp only at hb
    rw [he] at hb
    cases hb
    cases hc
    have := hu name
    simp only [List.length_cons, List.length_append, intTo4byte_length]
    omega

/-- The packets of a signed message fit their headers. -/
theorem signed_expressible {fl : Nat → Nat} {o : Nat → Py Bytes} {m : Msg} {d : Bytes} (hm : SinglePacket m) (hd : LiteralData m d)
    (hlen : d.length < 2 ^ 32 - 2000) {sigs : List Sig} {op : Bool}
    (hs : ∀ s ∈ sigs, ∀ c, s.content fl = .ok c → 1 ≤ c.length ∧ c.length < 200000)
    {ps : List MPacket} {rs : List RawPacket} (hp : (Msg.signed (sigs.map fun s => (HeaderFormat.new, s)) (some m) op).toPackets = .ok ps)
    (hr : ps.mapM (MPacket.raw fl o) = .ok rs) : ∀ r ∈ rs, Expressible r := by
  -- what the packets are
  have hps : ∀ p ∈ ps, p.fmt = .new ∧ ((∃ x, p.body = .onePass x) ∨ (∃ s ∈ sigs, p.body = .sig s) ∨ m.toPackets = .ok [p]) := by
    obtain ⟨os, ms, ss, ho, hms, hss, rfl⟩ : ∃ os ms ss, (onePassPackets (sigs.map fun s => (HeaderFormat.new, s)) = .ok os ∨ os = []) ∧
        m.toPackets = .ok ms ∧ (sigs.map fun s => (HeaderFormat.new, s)).mapM sigPacket = .ok ss ∧ ps = os ++ ms ++ ss := by
      rw [Msg.toPackets] at hp
      cases op with
      | true =>
        rw [if_pos rfl] at hp
        obtain ⟨os, ho, hp⟩ := except_bind_eq_ok.mp hp
        obtain ⟨ms, hms, hp⟩ := except_bind_eq_ok.mp hp
        obtain ⟨ss, hss, hp⟩ := except_bind_eq_ok.mp hp
        cases hp
        exact ⟨os, ms, ss, .inl ho, hms, hss, rfl⟩
      | false =>
        rw [if_neg (by simp)] at hp
        obtain ⟨os, ho, hp⟩ := except_bind_eq_ok.mp hp
        cases ho
        obtain ⟨ms, hms, hp⟩ := except_bind_eq_ok.mp hp
        obtain ⟨ss, hss, hp⟩ := except_bind_eq_ok.mp hp
        cases hp
        exact ⟨[], ms, ss, .inr rfl, hms, hss, rfl⟩
    have hops : ∀ (l : List Sig) (os : List MPacket), onePassPackets (l.map fun s => (HeaderFormat.new, s)) = .ok os →
        ∀ p ∈ os, p.fmt = .new ∧ ∃ x, p.body = .onePass x := by
      intro l
      induction l with
      | nil => intro os h; cases h; simp
      | cons s l ih =>
        intro os h
        rw [List.map_cons, onePassPackets] at h
        obtain ⟨p, hp, h⟩ := except_bind_eq_ok.mp h
        obtain ⟨r, hr, h⟩ := except_bind_eq_ok.mp h
        cases h
        intro q hq
        rcases List.mem_cons.mp hq with rfl | hq
        · cases s with
          | v3 => cases hp
          | v4 =>
            simp only [onePassPacket] at hp
            split at hp
            · cases hp
            · cases hp
              exact ⟨rfl, _, rfl⟩
        · exact ih r hr q hq
    have hsigs : ∀ (l : List Sig) (ss : List MPacket), (l.map fun s => (HeaderFormat.new, s)).mapM sigPacket = .ok ss →
        ∀ p ∈ ss, p.fmt = .new ∧ ∃ s ∈ l, p.body = .sig s := by
      intro l
      induction l with
      | nil => intro ss h; cases h; simp
      | cons s l ih =>
        intro ss h
        rw [List.map_cons, List.mapM_cons] at h
        obtain ⟨p, hp, h⟩ := except_bind_eq_ok.mp h
        obtain ⟨r, hr, h⟩ := except_bind_eq_ok.mp h
        cases h
        intro q hq
        rcases List.mem_cons.mp hq with rfl | hq
        · cases s with
          | v3 => cases hp
          | v4 =>
            cases hp
            exact ⟨rfl, _, List.mem_cons_self .., rfl⟩
        · obtain ⟨h1, s', h2, h3⟩ := ih r hr q hq
          exact ⟨h1, s', List.mem_cons_of_mem _ h2, h3⟩
    intro p hq
    rcases List.mem_append.mp hq with hq | hq
    · rcases List.mem_append.mp hq with hq | hq
      · rcases ho with ho | rfl
        · obtain ⟨h1, h2⟩ := hops _ _ ho p hq
          exact ⟨h1, .inl h2⟩
        · cases hq
      · cases hd with
        | text s name ts =>
          cases hms
          rw [List.mem_singleton] at hq
          subst hq
          exact ⟨rfl, .inr (.inr rfl)⟩
        | binary d name ts =>
          cases hms
          rw [List.mem_singleton] at hq
          subst hq
          exact ⟨rfl, .inr (.inr rfl)⟩
    · obtain ⟨h1, h2⟩ := hsigs _ _ hss p hq
      exact ⟨h1, .inr (.inl h2)⟩
  intro r hmem
  obtain ⟨p, hp, hraw⟩ : ∃ p ∈ ps, p.raw fl o = .ok r := by
    clear hps hp
    induction ps generalizing rs with
    | nil => cases hr; cases hmem
    | cons x ps ih =>
      rw [List.mapM_cons] at hr
      obtain ⟨y, hy, hr⟩ := except_bind_eq_ok.mp hr
      obtain ⟨ys, hys, hr⟩ := except_bind_eq_ok.mp hr
      cases hr
      rcases List.mem_cons.mp hmem with rfl | hmem
      · exact ⟨x, by simp, hy⟩
      · obtain ⟨p, h1, h2⟩ := ih hys hmem
        exact ⟨p, by simp [h1], h2⟩
  obtain ⟨hf, hb⟩ := hps p hp
  obtain ⟨f, b⟩ := p
  dsimp only at hf hb
  subst hf
  unfold MPacket.raw at hraw
  obtain ⟨c, hc, hraw⟩ := except_bind_eq_ok.mp hraw
  cases hraw
  left
  refine ⟨rfl, ?_⟩
  dsimp only at hc ⊢
  rcases hb with ⟨x, rfl⟩ | ⟨s, hsm, rfl⟩ | hlit
  · refine ⟨by simp [MBody.type], ?_⟩
    simp only [MBody.content] at hc
    unfold OnePass.content at hc
    obtain ⟨h4, g1, hc⟩ := except_bind_eq_ok.mp hc
    obtain ⟨k, g2, hc⟩ := except_bind_eq_ok.mp hc
    obtain ⟨n, g3, hc⟩ := except_bind_eq_ok.mp hc
    cases hc
    have l1 : h4.length = 4 := by
      have hl : ∀ (l : List Nat) (b : Bytes), extendInts l = .ok b → b.length = l.length := by
        intro l
        induction l with
        | nil => intro b h; cases h; rfl
        | cons a l ih =>
          intro b h
          unfold extendInts at h
          rw [List.mapM_cons] at h
          obtain ⟨y, _, h⟩ := except_bind_eq_ok.mp h
          obtain ⟨ys, hys, h⟩ := except_bind_eq_ok.mp h
          cases h
          rw [List.length_cons, List.length_cons, ih ys hys]
      exact hl _ _ g1
    have l2 : k.length = 8 := by
      unfold hexToBytes at g2
      obtain ⟨r, _, g2⟩ := except_bind_eq_ok.mp g2
      cases g2
      simp only [lastN, if_neg (show ¬ (8 : Nat) = 0 by decide), List.length_drop, List.length_append, List.length_replicate]
      omega
    simp only [List.length_append, l1, l2, List.length_singleton]
    omega
  · have := hs s hsm c hc
    exact ⟨by simp [MBody.type], this.1, by omega⟩
  · cases hm with
    | text s name ts hn hl ht =>
      cases hd
      cases hlit
      exact ⟨by simp [MBody.type], literal_length hl hlen rfl hc⟩
    | binary d name ts hn hl ht =>
      cases hd
      cases hlit
      exact ⟨by simp [MBody.type], literal_length hl hlen rfl hc⟩
    | compressed alg ha dd => cases hd

/-- C95: a literal message with any number of signatures, each made by a signer for it, is written, is read back as the same message with
the same signatures, and each signature verifies under the key that made it. -/
theorem C95_several_signers_partial (fl : Nat → Nat) (hl : LogOnCounts fl) (H : Digest) (hH : DigestOk H) (o : Nat → Py Bytes)
    (accept : RawPacket → Py Unit) (m : Msg) (hm : SinglePacket m) (d : Bytes) (hd : LiteralData m d) (hlen : d.length < 2 ^ 32 - 2000)
    (signers : List (SignKey × Nat × Nat × Nat)) (hne : signers ≠ []) (sigs : List Sig)
    (hs : List.Forall₂ (fun x sig => Signer fl H m x.1 x.2.1 x.2.2.1 x.2.2.2 ∧
      signDocument fl H x.1 m 4 x.2.1 x.2.2.1 x.2.2.2 = .ok sig) signers sigs) :
    Sendable fl (signedMessage sigs m) ∧
    (∀ ps rs, (signedMessage sigs m).toPackets = .ok ps → ps.mapM (MPacket.raw fl o) = .ok rs → ∀ r ∈ rs, Expressible r) ∧
    ∃ w, (signedMessage sigs m).bytes fl o = .ok w ∧ readMessage accept w = .ok (signedMessage sigs m) ∧
      List.Forall₂ (fun x sig => verifyDocument fl H x.1 m sig = .ok true) signers sigs := by
  have hall : ∀ s ∈ sigs, SigOk fl s ∧ (∀ v t p h hs us h2 vs, s = .v4 v t p h hs us h2 vs → issuersOf (hs ++ us) ≠ []) ∧
      ∀ c, s.content fl = .ok c → 1 ≤ c.length ∧ c.length < 200000 := by
    clear hne
    induction hs with
    | nil => simp
    | cons hx _ ih =>
      intro s hmem
      rcases List.mem_cons.mp hmem with rfl | hmem
      · obtain ⟨h1, h2, _, h4⟩ := signer_sig hH hx.1 hx.2
        exact ⟨h1, h2, h4⟩
      · exact ih s hmem
  have hsend : Sendable fl (signedMessage sigs m) := by
    refine .signed m hm _ ?_ ?_ ?_
    · intro hz
      rw [List.map_eq_nil_iff] at hz
      subst hz
      cases hs
      exact hne rfl
    · intro s hmem
      obtain ⟨x, hx, rfl⟩ := List.mem_map.mp hmem
      exact (hall x hx).1
    · intro s hmem
      obtain ⟨x, hx, rfl⟩ := List.mem_map.mp hmem
      exact (hall x hx).2.1
  have hexp : ∀ ps rs, (signedMessage sigs m).toPackets = .ok ps → ps.mapM (MPacket.raw fl o) = .ok rs → ∀ r ∈ rs, Expressible r :=
    fun ps rs h1 h2 => signed_expressible hm hd hlen (fun s hx => (hall s hx).2.2) h1 h2
  refine ⟨hsend, hexp, ?_⟩
  obtain ⟨ps, rs, h1, h2, h3⟩ := C66_message_roundtrip_partial fl hl o accept _ hsend
  obtain ⟨w, h4, h5⟩ := h3 (hexp ps rs h1 h2)
  refine ⟨w, h4, h5, ?_⟩
  clear hne hall hsend hexp h1 h3 h4 h5
  induction hs with
  | nil => exact .nil
  | cons hx _ ih => exact .cons (signer_sig hH hx.1 hx.2).2.2.1 ih

/-- C95: what `sign` returns for a literal message is written, read back the same, and its signature verifies under the key. -/
theorem C95_sign_send_verify_partial (fl : Nat → Nat) (hl : LogOnCounts fl) (H : Digest) (hH : DigestOk H) (o : Nat → Py Bytes)
    (accept : RawPacket → Py Unit) (m : Msg) (hm : SinglePacket m) (d : Bytes) (hd : LiteralData m d) (hlen : d.length < 2 ^ 32 - 2000)
    (K : SignKey) (prefs : Py (Got (List Nat))) (t h now : Nat) (sr : Signer fl H m K t h now) (s : Msg)
    (hs : m.sign fl H K prefs 4 t (some h) true now = .ok s) :
    ∃ sig w, s = signedMessage [sig] m ∧ s.bytes fl o = .ok w ∧ readMessage accept w = .ok s ∧
      verifyDocument fl H K m sig = .ok true := by
  unfold Msg.sign at hs
  obtain ⟨h', hh, hs⟩ := except_bind_eq_ok.mp hs
  cases hh
  obtain ⟨sig, hsig, hs⟩ := except_bind_eq_ok.mp hs
  cases hs
  obtain ⟨_, _, w, h1, h2, h3⟩ := C95_several_signers_partial fl hl H hH o accept m hm d hd hlen [(K, t, h, now)] (by simp) [sig]
    (.cons ⟨sr, hsig⟩ .nil)
  cases h3 with
  | cons h3 _ => exact ⟨sig, w, rfl, h1, h2, h3⟩

/-- C95: an unlocked key of an algorithm that can sign signs every literal message with every supported hash. -/
theorem C95_signs (fl : Nat → Nat) (H : Digest) (m : Msg) (d : Bytes) (hd : LiteralData m d) (K : SignKey) (hlock : K.locked = false)
    (ha : K.alg ∈ [1, 3, 17, 20]) (hk : K.keyId.length = 16 ∧ UpperHex K.keyId) (prefs : Py (Got (List Nat))) (t h now : Nat) (ht : t < 256)
    (hh : h ∈ digests) (op : Bool) : ∃ sig, m.sign fl H K prefs 4 t (some h) op now = .ok (.signed [(.new, sig)] (some m) op) := by
  obtain ⟨b, hb⟩ : ∃ b, m.signable t = .ok b := by cases hd <;> exact ⟨_, rfl⟩
  have h1 : keyObj K.alg = .ok () := by
    simp only [List.mem_cons, List.not_mem_nil, or_false] at ha
    unfold keyObj
    rw [if_pos (by omega)]
  have h2 := getHashInstance_ok.mpr hh
  have h256 : h < 256 := by
    have : ∀ a ∈ digests, a < 256 := by decide
    exact this h hh
  have halg : K.alg < 256 := by
    simp only [List.mem_cons, List.not_mem_nil, or_false] at ha
    omega
  obtain ⟨kb, hkl, hkb⟩ := upperHex_is_hexOf 8 K.keyId hk.2 hk.1
  have hsub : ∃ e, subsBytes fl [Sub.plain false (.issuer K.keyId), Sub.plain false (.creationTime now)] = .ok e := by
    have hw : ∀ ty (c : Bytes), ty < 128 → c.length < 100 → ∃ e, subBytes ty false c = .ok e := by
      intro ty c hty hc
      unfold subBytes newPacketLengthToBytes
      rw [if_pos (by omega), byteOf_lt (by omega), byteOf_lt (by simp; omega)]
      exact ⟨_, rfl⟩
    obtain ⟨e1, he1⟩ := hw 16 kb (by decide) (by omega)
    obtain ⟨e2, he2⟩ := hw 2 (intTo4byte now) (by decide) (by rw [intTo4byte_length]; decide)
    refine ⟨e1 ++ (e2 ++ []), ?_⟩
    have p1 : Sub.toBytes fl (.plain false (.issuer K.keyId)) = .ok e1 := by
      rw [Sub.toBytes, Plain.content, hkb, hexToBytes_hexOf hkl]
      exact he1
    have p2 : Sub.toBytes fl (.plain false (.creationTime now)) = .ok e2 := by
      rw [Sub.toBytes, Plain.content]
      exact he2
    simp only [subsBytes, p1, p2, except_bind_ok, except_pure]
  obtain ⟨e, he⟩ := hsub
  have hsg : ∃ b, sigSignable fl (.v4 4 t K.alg h [Sub.plain false (.issuer K.keyId), Sub.plain false (.creationTime now)] [] [] []) = .ok b := by
    simp only [sigSignable, he, trailerV4, byteOf_lt ht, byteOf_lt halg, byteOf_lt h256, byteOf_lt (show 4 < 256 by decide), except_bind_ok, except_pure]
    exact ⟨_, rfl⟩
  obtain ⟨tr, htr⟩ := hsg
  have hv : ∀ dg, ∃ vs, signHash fl K.prims K.alg h dg = .ok vs := by
    intro dg
    simp only [List.mem_cons, List.not_mem_nil, or_false] at ha
    unfold signHash
    rcases ha with h | h | h | h <;> rw [h] <;> exact ⟨_, rfl⟩
  obtain ⟨vs, hvs⟩ := hv (H h (b ++ tr))
  have hsign : signDocument fl H K m 4 t h now = .ok (.v4 4 t K.alg h [Sub.plain false (.issuer K.keyId), Sub.plain false (.creationTime now)] []
      ((H h (b ++ tr)).take 2) (vs.map some)) := by
    unfold signDocument signItem
    simp only [hlock, h1, h2, hb, Item.signInput, Item.signable, weakref, except_bind_ok, Bool.false_eq_true, if_false, if_true,
      show ¬ (4 = 2 ∨ 4 = 3) by decide, show ¬ 4 < 4 by decide, htr, hvs, except_pure]
  generalize Sig.v4 4 t K.alg h [Sub.plain false (.issuer K.keyId), Sub.plain false (.creationTime now)] [] ((H h (b ++ tr)).take 2)
    (vs.map some) = sig at hsign
  exact ⟨sig, by simp only [Msg.sign, chooseHash, hsign, except_bind_ok, except_pure]⟩

/-- A signer of a text message for the examples: a DSA key. -/
def exSigner : SignKey := ⟨"0123456789ABCDEF".toList, 17, false, toyPrims⟩
def exText : Msg := .literal true (.text "a\r\nb".toList) "a.txt".toList 5

theorem toy_room (d : Bytes) (values : List Nat) (h : signHash Nat.log2 toyPrims 17 2 d = .ok values) : ∀ n ∈ values, LogRoom Nat.log2 n := by
  intro n hn
  have hb := beNat_lt (d.take 20)
  cases h
  have hv : beNat (d.take 20) < 2 ^ 160 := Nat.lt_of_lt_of_le hb (by
    rw [show (2 : Nat) ^ 160 = 256 ^ 20 by decide +kernel]
    exact Nat.pow_le_pow_right (by decide) (by simp))
  refine logRoom_of_exact rfl (Nat.lt_of_lt_of_le (show n < 2 ^ 161 from ?_) (Nat.pow_le_pow_right (by decide) (by decide)))
  have hq : qBytes Nat.log2 (2 ^ 160 - 47) = 20 := by decide +kernel
  simp only [toyPrims, hq, osToInt_eq, List.mem_cons, List.not_mem_nil, or_false] at hn
  omega

theorem exSigner_ok (m : Msg) (t now : Nat) (hn : now < 2 ^ 32) : Signer Nat.log2 toyHash m exSigner t 2 now :=
  ⟨toyPrims_correct, ⟨rfl, by unfold UpperHex; decide⟩, hn, (by rintro (h | h) <;> cases h), toy_room⟩

theorem exText_signed (op : Bool) : ∃ sig, exText.sign Nat.log2 toyHash exSigner (.ok .default) 4 1 (some 2) op 1000 =
    .ok (.signed [(.new, sig)] (some exText) op) :=
  C95_signs Nat.log2 toyHash exText _ (.text _ _ _) exSigner rfl (by decide) ⟨rfl, by unfold UpperHex; decide⟩ _ 1 2 1000 (by decide) (by decide) op

example (accept : RawPacket → Py Unit) : ∃ s, exText.sign Nat.log2 toyHash exSigner (.ok .default) 4 1 (some 2) true 1000 = .ok s ∧
    ∃ sig w, s = signedMessage [sig] exText ∧ s.bytes Nat.log2 (fun _ => .ok []) = .ok w ∧ readMessage accept w = .ok s ∧
      verifyDocument Nat.log2 toyHash exSigner exText sig = .ok true := by
  obtain ⟨sig, hs⟩ := exText_signed true
  exact ⟨_, hs, C95_sign_send_verify_partial Nat.log2 (fun _ _ _ => rfl) toyHash toyHash_ok (fun _ => .ok []) accept exText
    (.text _ _ _ (by decide) (by decide) (by decide)) _ (.text _ _ _) (by decide) exSigner _ 1 2 1000 (exSigner_ok _ _ _ (by decide)) _ hs⟩

/-! ### C95: what an accepted signature means -/

/-- C95: a signature is accepted for a literal message only if it names the key as an issuer and the key's primitive accepted it for the
digest of the data of that message followed by the signature's own trailer. -/
theorem C95_accepted_partial (fl : Nat → Nat) (H : Digest) (K : SignKey) (m : Msg) (d : Bytes) (hd : LiteralData m d)
    (v t p h : Nat) (hv : 4 ≤ v) (ht : t ≠ 1 ∨ CanonicalLines d) (hashed unhashed : List Sub) (hash2 : Bytes) (values : List (Option Nat)) (r : Bool)
    (ho : verifyDocument fl H K m (.v4 v t p h hashed unhashed hash2 values) = .ok r) :
    r = true ∧ K.alg = p ∧ K.keyId ∈ issuersOf (hashed ++ unhashed) ∧ ∃ hd, subsBytes fl hashed = .ok hd ∧
      verifyHash fl K.prims p h
        (H h (documentOctets t d ++ trailer4 (UInt8.ofNat v) (UInt8.ofNat t) (UInt8.ofNat p) (UInt8.ofNat h) hd)) (values.filterMap id) = .ok true := by
  simp only [verifyDocument, C95_covered_partial m d hd t ht] at ho
  obtain ⟨h1, h2, h3, hd', h4, _, h6⟩ := C28_verify_sound fl H K (.document (documentOctets t d)) (by intro _ _ h; cases h) v t p h hv hashed unhashed
    hash2 values r ho
  exact ⟨h1, h2, h3, hd', h4, h6⟩

example : ∃ sig, verifyDocument Nat.log2 toyHash exSigner exText sig = .ok true := by
  obtain ⟨sig, hs⟩ := exText_signed true
  obtain ⟨sig', _, _, _, _, h⟩ := C95_sign_send_verify_partial Nat.log2 (fun _ _ _ => rfl) toyHash toyHash_ok (fun _ => .ok []) (fun _ => .ok ()) exText
    (.text _ _ _ (by decide) (by decide) (by decide)) _ (.text _ _ _) (by decide) exSigner _ 1 2 1000 (exSigner_ok _ _ _ (by decide)) _ hs
  exact ⟨sig', h⟩

/-- C95: no signature is accepted for a message that is not literal. -/
theorem C95_accepted_literal (fl : Nat → Nat) (H : Digest) (K : SignKey) (m : Msg) (hm : ∀ d, ¬ LiteralData m d) (sig : Sig) :
    Raises (verifyDocument fl H K m sig) := by
  cases sig with
  | v3 => exact ⟨_, rfl⟩
  | v4 v t p h hs us h2 vs =>
    cases hd : m.signable t with
    | ok d =>
      obtain ⟨d', h1, _⟩ := signable_data hd
      exact absurd h1 (hm d')
    | error e =>
      simp only [verifyDocument, hd]
      split
      · exact ⟨_, rfl⟩
      · split
        · exact ⟨_, rfl⟩
        · cases keyObj K.alg with
          | error e => exact ⟨_, rfl⟩
          | ok _ =>
            cases getHashInstance h with
            | error e => exact ⟨_, rfl⟩
            | ok _ => exact ⟨_, rfl⟩

/-- C95: which error it is. A signature that does not name the key as its issuer, or was made with another algorithm, fails to verify; any other
one with an algorithm and a hash the library knows raises what the message raises when asked for its octets: `TypeError` for a binary message that holds a text,
`AttributeError` for a text message that holds octets and for messages that are not literal. -/
theorem C95_not_literal_errors (fl : Nat → Nat) (H : Digest) (K : SignKey) (m : Msg) (v t p h : Nat) (hashed unhashed : List Sub) (hash2 : Bytes)
    (values : List (Option Nat)) (hm : ∀ d, ¬ LiteralData m d) (e : PyErr)
    (he : (∃ s n ts, m = .literal false (.text s) n ts) ∧ e = .typeError ∨ (¬∃ s n ts, m = .literal false (.text s) n ts) ∧ e = .attributeError) :
    ((K.keyId ∉ issuersOf (hashed ++ unhashed) ∨ K.alg ≠ p) →
      verifyDocument fl H K m (.v4 v t p h hashed unhashed hash2 values) = .error (.pgp "SignatureVerificationFailed")) ∧
    (K.keyId ∈ issuersOf (hashed ++ unhashed) → K.alg = p → keyObj K.alg = .ok () → getHashInstance h = .ok () →
      verifyDocument fl H K m (.v4 v t p h hashed unhashed hash2 values) = .error e) := by
  have hm : m.signable t = .error e := by
    rcases he with ⟨⟨s, n, ts, rfl⟩, rfl⟩ | ⟨hn, rfl⟩
    · rfl
    · cases m with
      | literal text data n ts =>
        cases text <;> cases data
        · exact absurd (LiteralData.binary _ _ _) (hm _)
        · exact absurd ⟨_, _, _, rfl⟩ hn
        · rfl
        · exact absurd (LiteralData.text _ _ _) (hm _)
      | compressed => rfl
      | encrypted => rfl
      | signed => rfl
  simp only [verifyDocument, hm]
  refine ⟨fun h1 => ?_, fun h1 h2 h3 h4 => ?_⟩
  · by_cases hi : K.keyId ∉ issuersOf (hashed ++ unhashed)
    · rw [if_pos hi]
    · rw [if_neg hi, if_pos (h1.resolve_left hi)]
  · rw [if_neg (fun hi => hi h1), if_neg (fun hi => hi h2), h3, h4]
    rfl

example := C95_not_literal_errors Nat.log2 toyHash exSigner (.compressed 1 []) 4 0 1 2 [] [] [] [] (by rintro d ⟨⟩) .attributeError (.inr ⟨(by rintro ⟨_, _, _, h⟩; cases h), rfl⟩)
example := C95_not_literal_errors Nat.log2 toyHash exSigner (.literal false (.text ['a']) [] 5) 4 0 1 2 [] [] [] [] (by rintro d ⟨⟩) .typeError (.inl ⟨⟨_, _, _, rfl⟩, rfl⟩)

/-- C95: the file name and the time of a literal message are not covered. -/
theorem C95_metadata (fl : Nat → Nat) (H : Digest) (K : SignKey) (text : Bool) (data : LitData) (name name' : Str) (ts ts' : Nat) (sig : Sig) :
    verifyDocument fl H K (.literal text data name ts) sig = verifyDocument fl H K (.literal text data name' ts') sig := by
  cases sig with
  | v3 => rfl
  | v4 => cases text <;> cases data <;> rfl

/-- C95 (refuted): a canonical text signature made over a text with a bare LF is accepted for the text in which the character before the LF is
another one. -/
theorem C95_text_forgery_refuted (fl : Nat → Nat) (H : Digest) (K : SignKey) (pre post : List Char) (a b : Char)
    (ha : a.toNat < 128 ∧ a ≠ '\r' ∧ a ≠ '\n') (hb : b.toNat < 128 ∧ b ≠ '\r' ∧ b ≠ '\n') (name : Str) (ts : Nat) (v p h : Nat)
    (hashed unhashed : List Sub) (hash2 : Bytes) (values : List (Option Nat))
    (ho : verifyDocument fl H K (.literal true (.text (pre ++ a :: '\n' :: post)) name ts) (.v4 v 1 p h hashed unhashed hash2 values) = .ok true) :
    verifyDocument fl H K (.literal true (.text (pre ++ b :: '\n' :: post)) name ts) (.v4 v 1 p h hashed unhashed hash2 values) = .ok true := by
  rw [← ho]
  simp only [verifyDocument, Msg.signable, C46_last_character_refuted pre post a b ha hb]

/-- "Pay 1\n" and "Pay 9\n". -/
example : ∃ sig, verifyDocument Nat.log2 toyHash exSigner (.literal true (.text "Pay 1\n".toList) [] 5) sig = .ok true ∧
    verifyDocument Nat.log2 toyHash exSigner (.literal true (.text "Pay 9\n".toList) [] 5) sig = .ok true := by
  obtain ⟨sig, hs⟩ := C95_signs Nat.log2 toyHash (.literal true (.text "Pay 1\n".toList) [] 5) _ (.text _ _ _) exSigner rfl (by decide)
    ⟨rfl, by unfold UpperHex; decide⟩ (.ok .default) 1 2 1000 (by decide) (by decide) true
  obtain ⟨sig', _, he, _, _, h⟩ := C95_sign_send_verify_partial Nat.log2 (fun _ _ _ => rfl) toyHash toyHash_ok (fun _ => .ok []) (fun _ => .ok ()) _
    (.text _ _ _ (by decide) (by decide) (by decide)) _ (.text _ _ _) (by decide) exSigner _ 1 2 1000 (exSigner_ok _ _ _ (by decide)) _ hs
  obtain ⟨_, _, hsig⟩ := except_bind_eq_ok.mp hs
  obtain ⟨s2, h2, hs2⟩ := except_bind_eq_ok.mp hsig
  cases hs2
  obtain ⟨d, _, hi⟩ := signDocument_ok h2
  obtain ⟨_, _, _, _, _, _, _, _, _, _, _, _, _, hshape⟩ := sign_shape hi
  cases he
  rw [hshape] at h
  exact ⟨_, h, C95_text_forgery_refuted Nat.log2 toyHash exSigner "Pay ".toList [] '1' '9' (by decide) (by decide) [] 5 4 _ _ _ _ _ _ h⟩

/-! ### C95: other ways to sign and send -/

/-- C95 (refuted): a message signed with `one_pass=False` arrives without its signature, as the bare literal message. -/
theorem C95_no_one_pass_refuted (fl : Nat → Nat) (H : Digest) (hH : DigestOk H) (o : Nat → Py Bytes)
    (accept : RawPacket → Py Unit) (m : Msg) (hm : SinglePacket m) (d : Bytes) (hd : LiteralData m d) (hlen : d.length < 2 ^ 32 - 2000)
    (K : SignKey) (prefs : Py (Got (List Nat))) (t h now : Nat) (sr : Signer fl H m K t h now) (s : Msg)
    (hs : m.sign fl H K prefs 4 t (some h) false now = .ok s) :
    ∃ w, s.bytes fl o = .ok w ∧ readMessage accept w = .ok m := by
  unfold Msg.sign at hs
  obtain ⟨h', hh, hs⟩ := except_bind_eq_ok.mp hs
  cases hh
  obtain ⟨sig, hsig, hs⟩ := except_bind_eq_ok.mp hs
  cases hs
  obtain ⟨k1, k2, _, k4⟩ := signer_sig hH sr hsig
  obtain ⟨p, p', g1, g2, g3, g4⟩ := single_reads fl o accept hm
  obtain ⟨ss, j1, j2, j3⟩ := sigs_read fl o accept [(HeaderFormat.new, sig)] (by
    intro x hx
    rw [List.mem_singleton] at hx
    subst hx
    exact k1)
  have hp : (Msg.signed [(HeaderFormat.new, sig)] (some m) false).toPackets = .ok ([] ++ [p] ++ ss) := by
    rw [Msg.toPackets]
    simp only [Bool.false_eq_true, if_false, g1, j1, except_bind_ok, except_pure]
  obtain ⟨rs, r1, r2, _⟩ := reads_lists (List.rel_append (.cons g2 .nil) j2 : List.Forall₂ (Reads fl o accept) ([p] ++ ss) ([p'] ++ ss))
  have hex := signed_expressible (fl := fl) (o := o) hm hd hlen (sigs := [sig]) (op := false) (by
    intro x hx
    rw [List.mem_singleton] at hx
    subst hx
    exact k4) hp r1
  obtain ⟨es, e1, e2⟩ := C10_parse_concat_partial rs hex
  refine ⟨es.flatten, ?_, ?_⟩
  · simp only [Msg.bytes, hp, List.nil_append, r1, joinPackets, e1, except_bind_ok, except_pure]
  · simp only [readMessage, e2, r2, except_bind_ok]
    have := C37_trailing_packets_refuted [p'] ss m g4 (by
      rintro sigs i op rfl
      cases hd)
    exact this

example (accept : RawPacket → Py Unit) : ∃ s, exText.sign Nat.log2 toyHash exSigner (.ok .default) 4 1 (some 2) false 1000 = .ok s ∧
    ∃ w, s.bytes Nat.log2 (fun _ => .ok []) = .ok w ∧ readMessage accept w = .ok exText := by
  obtain ⟨sig, hs⟩ := exText_signed false
  exact ⟨_, hs, C95_no_one_pass_refuted Nat.log2 toyHash toyHash_ok (fun _ => .ok []) accept exText
    (.text _ _ _ (by decide) (by decide) (by decide)) _ (.text _ _ _) (by decide) exSigner _ 1 2 1000 (exSigner_ok _ _ _ (by decide)) _ hs⟩

/-- C95 (refuted): without a hash algorithm the first of the key's preferences is taken, and without preferences MD5 (1). -/
theorem C95_default_hash_refuted (fl : Nat → Nat) (H : Digest) (K : SignKey) (m : Msg) (v t : Nat) (op : Bool) (now : Nat) :
    (∀ h l, m.sign fl H K (.ok (.value (some (h :: l)))) v t none op now = m.sign fl H K (.ok .default) v t (some h) op now) ∧
    (∀ prefs ∈ [Got.default, .value none, .value (some [])], m.sign fl H K (.ok prefs) v t none op now =
      m.sign fl H K (.ok .default) v t (some 1) op now) ∧
    (∀ e, m.sign fl H K (.error e) v t none op now = .error e) ∧
    (∀ prefs h, m.sign fl H K prefs v t (some h) op now = m.sign fl H K (.ok .default) v t (some h) op now) := by
  refine ⟨fun _ _ => rfl, ?_, fun _ => rfl, fun _ _ => rfl⟩
  intro prefs hp
  simp only [List.mem_cons, List.not_mem_nil, or_false] at hp
  rcases hp with rfl | rfl | rfl <;> rfl

/-- C95: versions other than 4 cannot be made, nor a signature by a locked key. -/
theorem C95_versions_raise (fl : Nat → Nat) (H : Digest) (K : SignKey) (prefs : Py (Got (List Nat))) (m : Msg) (v t : Nat) (h : Option Nat)
    (op : Bool) (now : Nat) (hv : v < 4 ∨ K.locked = true) : Raises (m.sign fl H K prefs v t h op now) := by
  cases hr : m.sign fl H K prefs v t h op now with
  | error e => exact ⟨e, rfl⟩
  | ok s =>
    exfalso
    unfold Msg.sign at hr
    obtain ⟨_, _, hr⟩ := except_bind_eq_ok.mp hr
    obtain ⟨sig, hs, hr⟩ := except_bind_eq_ok.mp hr
    obtain ⟨d, _, hi⟩ := signDocument_ok hs
    obtain ⟨h1, _, _, h4, _⟩ := sign_shape hi
    rcases hv with hv | hv
    · omega
    · rw [h1] at hv; cases hv

/-- C95: a message signed, then encrypted with a passphrase and sent, is opened by the passphrase as the same signed message, whose signatures verify. -/
theorem C95_passphrase_partial (S : BlockCiphers) (H : Digest) (hH : DigestOk H) (fl : Nat → Nat) (hl : LogOnCounts fl) (o : Nat → Py Bytes)
    (op : Nat → Bytes → Bytes → Bytes → Py Bytes) (accept : RawPacket → Py Unit) (hacc : ∀ p, p.type = 19 → accept p = .ok ())
    (m : Msg) (hm : SinglePacket m) (d : Bytes) (hd : LiteralData m d) (hlen : d.length < 2 ^ 32 - 2000)
    (signers : List (SignKey × Nat × Nat × Nat)) (hne : signers ≠ []) (sigs : List Sig)
    (hs : List.Forall₂ (fun x sig => Signer fl H m x.1 x.2.1 x.2.2.1 x.2.2.2 ∧
      signDocument fl H x.1 m 4 x.2.1 x.2.2.1 x.2.2.2 = .ok sig) signers sigs)
    (s2k : S2K) (he : Encodable s2k) (bl n : Nat) (isStr : Bool) (pass key sk iv : Bytes) (hk : s2k.toKey H pass = .ok (some key))
    (u : Usable S s2k.sym bl key) (us : Usable S s2k.sym bl sk) (hsym : s2k.sym < 256) (hn : tableKeyOctets s2k.sym = some n) (hsk : sk ≠ [])
    (hkl : sk.length ≤ n) (hiv : iv.length = bl) (w : Bytes) (hw : (signedMessage sigs m).bytes fl o = .ok w) (hwl : w.length + bl + 25 < 2 ^ 32) :
    ∃ e data, symmetricEncrypt S H fl o (signedMessage sigs m) s2k.sym pass s2k sk iv true = .ok e ∧ e.bytes fl o = .ok data ∧
      readMessage accept data = .ok e ∧ e.getMessage S H op accept (.passphrase isStr pass) = .ok (signedMessage sigs m) ∧
      List.Forall₂ (fun x sig => verifyDocument fl H x.1 m sig = .ok true) signers sigs := by
  obtain ⟨h1, h2, _, _, _, h3⟩ := C95_several_signers_partial fl hl H hH o accept m hm d hd hlen signers hne sigs hs
  obtain ⟨ps, rs, g1, g2, _⟩ := C66_message_roundtrip_partial fl hl o accept _ h1
  obtain ⟨e, data, k1, k2, k3, k4⟩ := C67_passphrase_roundtrip_partial S H fl hl o op accept hacc (hH 2 20 rfl) _ h1 rs ps g1 g2 (h2 ps rs g1 g2)
    s2k he bl n isStr pass key sk iv hk u us hsym hn hsk hkl hiv w hw hwl
  exact ⟨e, data, k1, k2, k3, k4, h3⟩

/-- C95: a message signed, then encrypted to any number of RSA keys and sent, is opened by each of the secret keys as the same signed message,
whose signatures verify. -/
theorem C95_public_key_partial (S : BlockCiphers) (H : Digest) (hH : DigestOk H) (fl : Nat → Nat) (hl : LogOnCounts fl) (o : Nat → Py Bytes)
    (op : Nat → Bytes → Bytes → Bytes → Py Bytes) (accept : RawPacket → Py Unit) (hacc : ∀ p, p.type = 19 → accept p = .ok ())
    (m : Msg) (hm : SinglePacket m) (d : Bytes) (hd : LiteralData m d) (hlen : d.length < 2 ^ 32 - 2000)
    (signers : List (SignKey × Nat × Nat × Nat)) (hs1 : signers ≠ []) (sigs : List Sig)
    (hs : List.Forall₂ (fun x sig => Signer fl H m x.1 x.2.1 x.2.2.1 x.2.2.2 ∧
      signDocument fl H x.1 m 4 x.2.1 x.2.2.1 x.2.2.2 = .ok sig) signers sigs)
    (sym bl : Nat) (hsym : sym < 256) (sk iv : Bytes) (us : Usable S sym bl sk) (hiv : iv.length = bl)
    (w : Bytes) (hw : (signedMessage sigs m).bytes fl o = .ok w) (hwl : w.length + bl + 25 < 2 ^ 32)
    (named hidden : List RsaPair) (hne : named ≠ []) (hworks : ∀ r ∈ named ++ hidden, r.Works)
    (hroom : ∀ r ∈ named ++ hidden, sk.length + 14 ≤ r.k)
    (block : Bytes) (hblock : SessionBlock (UInt8.ofNat sym) sk block)
    (hzero : ∀ r ∈ named ++ hidden, ∃ x b, r.enc block = x :: b ∧ x ≠ 0)
    (hfl : ∀ r ∈ named ++ hidden, OctetLog fl (beNat (r.enc block)))
    (hother : (named ++ hidden).Pairwise fun a b => a.k ≠ b.k ∨ b.dec (a.enc block) = none) :
    ∃ e data received, publicKeyEncrypt S H fl o (signedMessage sigs m) sym none (some (named.map (·.recipient)))
        (some (hidden.map (·.recipient))) sk iv true = .ok e ∧ e.bytes fl o = .ok data ∧ readMessage accept data = .ok received ∧
      (∀ r ∈ named ++ hidden, ∀ single,
        received.getMessage S H op accept (.secretKey false (r.holder single).open_) = .ok (signedMessage sigs m)) ∧
      List.Forall₂ (fun x sig => verifyDocument fl H x.1 m sig = .ok true) signers sigs := by
  obtain ⟨h1, h2, _, _, _, h3⟩ := C95_several_signers_partial fl hl H hH o accept m hm d hd hlen signers hs1 sigs hs
  obtain ⟨ps, rs, g1, g2, _⟩ := C66_message_roundtrip_partial fl hl o accept _ h1
  obtain ⟨e, data, k1, k2, k3, k4⟩ := C81_every_recipient_opens_partial S H fl hl o op accept hacc (hH 2 20 rfl) _ h1 rs ps g1 g2
    (h2 ps rs g1 g2) sym bl hsym sk iv us hiv w hw hwl named hidden hne hworks hroom block hblock hzero hfl hother
  exact ⟨e, data, e, k1, k2, k3, k4, h3⟩

/-- The signed text for two key pairs, one of them hidden, with moduli of 64 and of 128 octets: all hypotheses of the theorem before are met. -/
example (op : Nat → Bytes → Bytes → Bytes → Py Bytes) (accept : RawPacket → Py Unit) (hacc : ∀ p, p.type = 19 → accept p = .ok ()) :
    ∃ (sig : Sig) (w : Bytes), (signedMessage [sig] exText).bytes Nat.log2 (fun _ => .ok []) = .ok w ∧
      (w.length + 16 + 25 < 2 ^ 32 → ∃ e data received,
        publicKeyEncrypt ⟨fun _ _ b => b, fun _ _ => true⟩ toyHash Nat.log2 (fun _ => .ok []) (signedMessage [sig] exText) 9 none
          (some [(⟨List.replicate 8 1, padTo 64, unpad, 64⟩ : RsaPair).recipient]) (some [(⟨List.replicate 8 3, padTo 128, unpad, 128⟩ : RsaPair).recipient])
          (List.replicate 32 7) (List.replicate 16 9) true = .ok e ∧ e.bytes Nat.log2 (fun _ => .ok []) = .ok data ∧
        readMessage accept data = .ok received) := by
  obtain ⟨sig, hs⟩ := exText_signed true
  obtain ⟨_, h1, hs⟩ := except_bind_eq_ok.mp hs
  cases h1
  obtain ⟨sig', h2, hs⟩ := except_bind_eq_ok.mp hs
  cases hs
  have hall : List.Forall₂ (fun (x : SignKey × Nat × Nat × Nat) sig => Signer Nat.log2 toyHash exText x.1 x.2.1 x.2.2.1 x.2.2.2 ∧
      signDocument Nat.log2 toyHash x.1 exText 4 x.2.1 x.2.2.1 x.2.2.2 = .ok sig) [(exSigner, 1, 2, 1000)] [sig] :=
    .cons ⟨exSigner_ok _ _ _ (by decide), h2⟩ .nil
  obtain ⟨_, _, w, w1, _⟩ := C95_several_signers_partial Nat.log2 (fun _ _ _ => rfl) toyHash toyHash_ok (fun _ => .ok []) accept exText
    (.text _ _ _ (by decide) (by decide) (by decide)) _ (.text _ _ _) (by decide) _ (by simp) _ hall
  refine ⟨sig, w, w1, fun hwl => ?_⟩
  obtain ⟨e, data, r, k1, k2, k3, _⟩ := C95_public_key_partial ⟨fun _ _ b => b, fun _ _ => true⟩ toyHash toyHash_ok Nat.log2 (fun _ _ _ => rfl)
    (fun _ => .ok []) op accept hacc exText (.text _ _ _ (by decide) (by decide) (by decide)) _ (.text _ _ _) (by decide) _ (by simp) _ hall
    9 16 (by decide) (List.replicate 32 7) (List.replicate 16 9) ⟨rfl, by decide, rfl, fun b hb => hb⟩ rfl w w1 hwl
    [⟨List.replicate 8 1, padTo 64, unpad, 64⟩] [⟨List.replicate 8 3, padTo 128, unpad, 128⟩] (by simp)
    (by intro r hr; simp only [List.singleton_append, List.mem_cons, List.not_mem_nil, or_false] at hr; rcases hr with rfl | rfl <;> exact padTo_works _ rfl _)
    (by simp) _ rfl
    (by intro r hr; simp only [List.singleton_append, List.mem_cons, List.not_mem_nil, or_false] at hr; rcases hr with rfl | rfl <;> exact ⟨2, _, rfl, by decide⟩)
    (by intro r hr; simp only [List.singleton_append, List.mem_cons, List.not_mem_nil, or_false] at hr; rcases hr with rfl | rfl <;> exact ⟨by decide +kernel, rfl⟩)
    (by simp)
  exact ⟨e, data, r, k1, k2, k3⟩

/-! ### C96: compressed messages -/

/-- C96: every message that can be sent, compressed with algorithm 0, 1 or 2 at any level zlib takes, opens as the same message; and so does
what is received after the compressed message has been sent. -/
theorem C96_compress_opens_partial (Z : Zlib) (B : Bz2) (hz : ZlibWorks Z) (fl : Nat → Nat) (hl : LogOnCounts fl) (o : Nat → Py Bytes)
    (accept : RawPacket → Py Unit) (alg : Nat) (ha : alg ≤ 2) (lvl : Option Nat) (c : Z.Comp) (hc : Z.newComp lvl = .ok c) (m : Msg)
    (hm : Sendable fl m)
    (hex : ∀ ps rs, m.toPackets = .ok ps → ps.mapM (MPacket.raw fl o) = .ok rs → ∀ r ∈ rs, Expressible r) :
    ∃ z, m.compress Z B fl o alg lvl = .ok (.compressed alg z) ∧ (Msg.compressed alg z).contained Z B accept = .ok (some m) ∧
      (z.length + 1 < 2 ^ 32 → ∃ w, (Msg.compressed alg z).bytes fl o = .ok w ∧ readMessage accept w = .ok (.compressed alg z)) := by
  obtain ⟨ps, ps', h1, h2, h3⟩ := sendable_reads hl o accept hm
  obtain ⟨rs, r1, r2, _⟩ := reads_lists h2
  obtain ⟨z, z1, z2⟩ := C47_packets_roundtrip Z B hz alg ha lvl c hc rs (hex ps rs h1 r1)
  refine ⟨z, ?_, ?_, fun hlen => ?_⟩
  · simp only [Msg.compress, h1, r1, z1, except_bind_ok, except_pure]
  · simp only [Msg.contained, z2, r2, h3, except_bind_ok, except_pure]
  · obtain ⟨qs, qrs, q1, q2, q3⟩ := C66_message_roundtrip_partial fl hl o accept (.compressed alg z) (.single _ (.compressed alg (by omega) z))
    refine q3 ?_
    have hq : (Msg.compressed alg z).toPackets = .ok [⟨.new, .compressed ⟨alg, z⟩⟩] := rfl
    rw [hq] at q1
    cases q1
    have hq2 : List.mapM (MPacket.raw fl o) [⟨.new, .compressed ⟨alg, z⟩⟩] = .ok [⟨.new, 8, UInt8.ofNat alg :: z⟩] := by
      simp only [List.mapM_cons, List.mapM_nil, MPacket.raw, MBody.content, MBody.type, Compressed.content, byteOf_lt (show alg < 256 by omega),
        except_bind_ok, except_pure]
    rw [hq2] at q2
    cases q2
    intro r hr
    rw [List.mem_singleton] at hr
    subst hr
    exact .inl ⟨rfl, show 8 < 64 by decide, by simp, by simp only [List.length_cons]; omega⟩

/-- The literal message "a\r\nb" fits its packet. -/
theorem exText_expressible (o : Nat → Py Bytes) (ps : List MPacket) (rs : List RawPacket) (h1 : exText.toPackets = .ok ps)
    (h2 : ps.mapM (MPacket.raw Nat.log2 o) = .ok rs) : ∀ r ∈ rs, Expressible r := by
  cases h1
  have h3 : List.mapM (MPacket.raw Nat.log2 o)
      [⟨.new, .literal ⟨0x75, "a.txt".toList, .datetime 5, .text "a\r\nb".toList⟩⟩] =
      .ok [⟨.new, 11, [0x75, 5, 0x61, 0x2e, 0x74, 0x78, 0x74, 0, 0, 0, 5, 0x61, 13, 10, 0x62]⟩] := by
    rfl
  have h4 := h3.symm.trans h2
  cases h4
  intro r hr
  rw [List.mem_singleton] at hr
  subst hr
  exact .inl ⟨rfl, show 11 < 64 by decide, show 1 ≤ 15 by decide, show 15 ≤ 2 ^ 32 - 1 by decide⟩

example (B : Bz2) (accept : RawPacket → Py Unit) : ∃ z, exText.compress toyZlib B Nat.log2 (fun _ => .ok []) 2 (some 6) = .ok (.compressed 2 z) ∧
    (Msg.compressed 2 z).contained toyZlib B accept = .ok (some exText) := by
  obtain ⟨z, h1, h2, _⟩ := C96_compress_opens_partial toyZlib B toyZlib_works Nat.log2 (fun _ _ _ => rfl) (fun _ => .ok []) accept 2 (by decide) (some 6)
    false rfl exText (.single _ (.text _ _ _ (by decide) (by decide) (by decide))) (exText_expressible _)
  exact ⟨z, h1, h2⟩

/-- C96: a message signed by any number of signers, compressed and sent, is received as a compressed message that opens as the same signed
message, all of whose signatures verify. -/
theorem C96_sign_compress_send_partial (Z : Zlib) (B : Bz2) (hz : ZlibWorks Z) (fl : Nat → Nat) (hl : LogOnCounts fl) (H : Digest) (hH : DigestOk H)
    (o : Nat → Py Bytes) (accept : RawPacket → Py Unit) (alg : Nat) (ha : alg ≤ 2) (lvl : Option Nat) (c : Z.Comp) (hc : Z.newComp lvl = .ok c)
    (m : Msg) (hm : SinglePacket m) (d : Bytes) (hd : LiteralData m d) (hlen : d.length < 2 ^ 32 - 2000)
    (signers : List (SignKey × Nat × Nat × Nat)) (hne : signers ≠ []) (sigs : List Sig)
    (hs : List.Forall₂ (fun x sig => Signer fl H m x.1 x.2.1 x.2.2.1 x.2.2.2 ∧
      signDocument fl H x.1 m 4 x.2.1 x.2.2.1 x.2.2.2 = .ok sig) signers sigs) :
    ∃ z, (signedMessage sigs m).compress Z B fl o alg lvl = .ok (.compressed alg z) ∧
      (z.length + 1 < 2 ^ 32 → ∃ w received, (Msg.compressed alg z).bytes fl o = .ok w ∧ readMessage accept w = .ok received ∧
        received.contained Z B accept = .ok (some (signedMessage sigs m)) ∧
        (signedMessage sigs m).contained Z B accept = .ok (some m) ∧
        List.Forall₂ (fun x sig => verifyDocument fl H x.1 m sig = .ok true) signers sigs) := by
  obtain ⟨h1, h2, _, _, _, h3⟩ := C95_several_signers_partial fl hl H hH o accept m hm d hd hlen signers hne sigs hs
  obtain ⟨z, z1, z2, z3⟩ := C96_compress_opens_partial Z B hz fl hl o accept alg ha lvl c hc _ h1 h2
  refine ⟨z, z1, fun hzl => ?_⟩
  obtain ⟨w, w1, w2⟩ := z3 hzl
  exact ⟨w, _, w1, w2, z2, rfl, h3⟩

/-- The packet of compressed data is at most seven octets longer than the data. -/
theorem compressed_packet {fl : Nat → Nat} {o : Nat → Py Bytes} {alg : Nat} (ha : alg ≤ 2) {z w : Bytes} (hz : z.length + 1 < 2 ^ 32)
    (w1 : (Msg.compressed alg z).bytes fl o = .ok w) :
    List.mapM (MPacket.raw fl o) [⟨.new, .compressed ⟨alg, z⟩⟩] = .ok [⟨.new, 8, UInt8.ofNat alg :: z⟩] ∧
    (∀ r ∈ [(⟨.new, 8, UInt8.ofNat alg :: z⟩ : RawPacket)], Expressible r) ∧ w.length ≤ z.length + 7 := by
  have hraw : List.mapM (MPacket.raw fl o) [⟨.new, .compressed ⟨alg, z⟩⟩] = .ok [⟨.new, 8, UInt8.ofNat alg :: z⟩] := by
    simp only [List.mapM_cons, List.mapM_nil, MPacket.raw, MBody.content, MBody.type, Compressed.content, byteOf_lt (show alg < 256 by omega),
      except_bind_ok, except_pure]
  have hex : ∀ r ∈ [(⟨.new, 8, UInt8.ofNat alg :: z⟩ : RawPacket)], Expressible r := by
    intro r hr
    rw [List.mem_singleton] at hr
    subst hr
    exact .inl ⟨rfl, show 8 < 64 by decide, by simp, by simp only [List.length_cons]; omega⟩
  refine ⟨hraw, hex, ?_⟩
  obtain ⟨b, hb⟩ : ∃ b, Packet.toBytes 1 ⟨.new, 8, UInt8.ofNat alg :: z⟩ = .ok b := by
    cases hb : Packet.toBytes 1 ⟨.new, 8, UInt8.ofNat alg :: z⟩ with
    | ok b => exact ⟨b, rfl⟩
    | error e =>
      simp only [Msg.bytes, Msg.toPackets, hraw, except_bind_ok, joinPackets, List.mapM_cons, hb] at w1
      cases w1
  simp only [Msg.bytes, Msg.toPackets, hraw, except_bind_ok, joinPackets, List.mapM_cons, List.mapM_nil, hb, except_pure, List.flatten_cons,
    List.flatten_nil, List.append_nil] at w1
  cases w1
  obtain ⟨hd', ⟨_, _, l, hl', rfl⟩, rfl⟩ := (C83_packet_octets_iff _ (hex _ (by simp)) w).mp hb
  have := shortest_length hl'
  simp only [List.length_append, List.length_cons] at this ⊢
  split at this
  · omega
  · split at this <;> omega

/-- C96: signed by any number of signers, compressed, encrypted with a passphrase and sent: the passphrase opens what is received to the
compressed message, which opens to the signed one, all of whose signatures verify. -/
theorem C96_sign_compress_encrypt_partial (Z : Zlib) (B : Bz2) (hz : ZlibWorks Z) (S : BlockCiphers) (fl : Nat → Nat) (hl : LogOnCounts fl)
    (H : Digest) (hH : DigestOk H) (o : Nat → Py Bytes) (op : Nat → Bytes → Bytes → Bytes → Py Bytes) (accept : RawPacket → Py Unit)
    (hacc : ∀ p, p.type = 19 → accept p = .ok ()) (alg : Nat) (ha : alg ≤ 2) (lvl : Option Nat) (c : Z.Comp) (hc : Z.newComp lvl = .ok c)
    (m : Msg) (hm : SinglePacket m) (d : Bytes) (hd : LiteralData m d) (hlen : d.length < 2 ^ 32 - 2000)
    (signers : List (SignKey × Nat × Nat × Nat)) (hne : signers ≠ []) (sigs : List Sig)
    (hs : List.Forall₂ (fun x sig => Signer fl H m x.1 x.2.1 x.2.2.1 x.2.2.2 ∧
      signDocument fl H x.1 m 4 x.2.1 x.2.2.1 x.2.2.2 = .ok sig) signers sigs)
    (s2k : S2K) (he : Encodable s2k) (bl n : Nat) (isStr : Bool) (pass key sk iv : Bytes) (hk : s2k.toKey H pass = .ok (some key))
    (u : Usable S s2k.sym bl key) (us : Usable S s2k.sym bl sk) (hsym : s2k.sym < 256) (hn : tableKeyOctets s2k.sym = some n) (hsk : sk ≠ [])
    (hkl : sk.length ≤ n) (hiv : iv.length = bl) :
    ∃ z, (signedMessage sigs m).compress Z B fl o alg lvl = .ok (.compressed alg z) ∧
      (z.length + bl + 100 < 2 ^ 32 → ∃ e w received,
        symmetricEncrypt S H fl o (.compressed alg z) s2k.sym pass s2k sk iv true = .ok e ∧ e.bytes fl o = .ok w ∧
        readMessage accept w = .ok received ∧ received.getMessage S H op accept (.passphrase isStr pass) = .ok (.compressed alg z) ∧
        (Msg.compressed alg z).contained Z B accept = .ok (some (signedMessage sigs m)) ∧
        List.Forall₂ (fun x sig => verifyDocument fl H x.1 m sig = .ok true) signers sigs) := by
  obtain ⟨h1, h2, _, _, _, h3⟩ := C95_several_signers_partial fl hl H hH o accept m hm d hd hlen signers hne sigs hs
  obtain ⟨z, z1, z2, z3⟩ := C96_compress_opens_partial Z B hz fl hl o accept alg ha lvl c hc _ h1 h2
  refine ⟨z, z1, fun hzl => ?_⟩
  obtain ⟨w, w1, w2⟩ := z3 (by omega)
  obtain ⟨hraw, hex, hwl⟩ := compressed_packet ha (by omega) w1
  obtain ⟨e, data, k1, k2, k3, k4⟩ := C67_passphrase_roundtrip_partial S H fl hl o op accept hacc (hH 2 20 rfl) (.compressed alg z)
    (.single _ (.compressed alg (by omega) z)) _ _ rfl hraw hex
    s2k he bl n isStr pass key sk iv hk u us hsym hn hsk hkl hiv w w1 (by omega)
  exact ⟨e, data, e, k1, k2, k3, k4, z2, h3⟩

/-- C96: signed by any number of signers, compressed, encrypted to any number of RSA keys and sent: each of the secret keys opens what is
received to the compressed message, which opens to the signed one, all of whose signatures verify. -/
theorem C96_sign_compress_public_partial (Z : Zlib) (B : Bz2) (hz : ZlibWorks Z) (S : BlockCiphers) (fl : Nat → Nat) (hl : LogOnCounts fl)
    (H : Digest) (hH : DigestOk H) (o : Nat → Py Bytes) (op : Nat → Bytes → Bytes → Bytes → Py Bytes) (accept : RawPacket → Py Unit)
    (hacc : ∀ p, p.type = 19 → accept p = .ok ()) (alg : Nat) (ha : alg ≤ 2) (lvl : Option Nat) (c : Z.Comp) (hc : Z.newComp lvl = .ok c)
    (m : Msg) (hm : SinglePacket m) (d : Bytes) (hd : LiteralData m d) (hlen : d.length < 2 ^ 32 - 2000)
    (signers : List (SignKey × Nat × Nat × Nat)) (hs1 : signers ≠ []) (sigs : List Sig)
    (hs : List.Forall₂ (fun x sig => Signer fl H m x.1 x.2.1 x.2.2.1 x.2.2.2 ∧
      signDocument fl H x.1 m 4 x.2.1 x.2.2.1 x.2.2.2 = .ok sig) signers sigs)
    (sym bl : Nat) (hsym : sym < 256) (sk iv : Bytes) (us : Usable S sym bl sk) (hiv : iv.length = bl)
    (named hidden : List RsaPair) (hne : named ≠ []) (hworks : ∀ r ∈ named ++ hidden, r.Works)
    (hroom : ∀ r ∈ named ++ hidden, sk.length + 14 ≤ r.k)
    (block : Bytes) (hblock : SessionBlock (UInt8.ofNat sym) sk block)
    (hzero : ∀ r ∈ named ++ hidden, ∃ x b, r.enc block = x :: b ∧ x ≠ 0)
    (hfl : ∀ r ∈ named ++ hidden, OctetLog fl (beNat (r.enc block)))
    (hother : (named ++ hidden).Pairwise fun a b => a.k ≠ b.k ∨ b.dec (a.enc block) = none) :
    ∃ z, (signedMessage sigs m).compress Z B fl o alg lvl = .ok (.compressed alg z) ∧
      (z.length + bl + 100 < 2 ^ 32 → ∃ e w received,
        publicKeyEncrypt S H fl o (.compressed alg z) sym none (some (named.map (·.recipient))) (some (hidden.map (·.recipient))) sk iv true =
          .ok e ∧ e.bytes fl o = .ok w ∧ readMessage accept w = .ok received ∧
        (∀ r ∈ named ++ hidden, ∀ single,
          received.getMessage S H op accept (.secretKey false (r.holder single).open_) = .ok (.compressed alg z)) ∧
        (Msg.compressed alg z).contained Z B accept = .ok (some (signedMessage sigs m)) ∧
        List.Forall₂ (fun x sig => verifyDocument fl H x.1 m sig = .ok true) signers sigs) := by
  obtain ⟨h1, h2, _, _, _, h3⟩ := C95_several_signers_partial fl hl H hH o accept m hm d hd hlen signers hs1 sigs hs
  obtain ⟨z, z1, z2, z3⟩ := C96_compress_opens_partial Z B hz fl hl o accept alg ha lvl c hc _ h1 h2
  refine ⟨z, z1, fun hzl => ?_⟩
  obtain ⟨w, w1, w2⟩ := z3 (by omega)
  obtain ⟨hraw, hex, hwl⟩ := compressed_packet ha (by omega) w1
  obtain ⟨e, data, k1, k2, k3, k4⟩ := C81_every_recipient_opens_partial S H fl hl o op accept hacc (hH 2 20 rfl) (.compressed alg z)
    (.single _ (.compressed alg (by omega) z)) _ _ rfl hraw hex sym bl hsym sk iv us hiv w w1 (by omega) named hidden hne hworks hroom block hblock
    hzero hfl hother
  exact ⟨e, data, e, k1, k2, k3, k4, z2, h3⟩

/-- The text message signed, compressed with zlib and encrypted to two keys. -/
example (B : Bz2) (op : Nat → Bytes → Bytes → Bytes → Py Bytes) (accept : RawPacket → Py Unit) (hacc : ∀ p, p.type = 19 → accept p = .ok ()) :
    ∃ (sig : Sig) (z : Bytes), (signedMessage [sig] exText).compress toyZlib B Nat.log2 (fun _ => .ok []) 2 (some 6) = .ok (.compressed 2 z) := by
  obtain ⟨sig, hs⟩ := exText_signed true
  obtain ⟨_, h1, hs⟩ := except_bind_eq_ok.mp hs
  cases h1
  obtain ⟨sig', h2, hs⟩ := except_bind_eq_ok.mp hs
  cases hs
  obtain ⟨z, h3, _⟩ := C96_sign_compress_public_partial toyZlib B toyZlib_works ⟨fun _ _ b => b, fun _ _ => true⟩ Nat.log2 (fun _ _ _ => rfl) toyHash
    toyHash_ok (fun _ => .ok []) op accept hacc 2 (by decide) (some 6) false rfl exText (.text _ _ _ (by decide) (by decide) (by decide)) _ (.text _ _ _)
    (by decide) [(exSigner, 1, 2, 1000)] (by simp) [sig] (.cons ⟨exSigner_ok _ _ _ (by decide), h2⟩ .nil)
    9 16 (by decide) (List.replicate 32 7) (List.replicate 16 9) ⟨rfl, by decide, rfl, fun b hb => hb⟩ rfl
    [⟨List.replicate 8 1, padTo 64, unpad, 64⟩] [⟨List.replicate 8 3, padTo 128, unpad, 128⟩] (by simp)
    (by intro r hr; simp only [List.singleton_append, List.mem_cons, List.not_mem_nil, or_false] at hr; rcases hr with rfl | rfl <;> exact padTo_works _ rfl _)
    (by simp) _ rfl
    (by intro r hr; simp only [List.singleton_append, List.mem_cons, List.not_mem_nil, or_false] at hr; rcases hr with rfl | rfl <;> exact ⟨2, _, rfl, by decide⟩)
    (by intro r hr; simp only [List.singleton_append, List.mem_cons, List.not_mem_nil, or_false] at hr; rcases hr with rfl | rfl <;> exact ⟨by decide +kernel, rfl⟩)
    (by simp)
  exact ⟨sig, z, h3⟩

/-- The text message signed, compressed with zlib and encrypted with the passphrase 1, 2, 3: all hypotheses of the theorem before are met. -/
example (B : Bz2) (op : Nat → Bytes → Bytes → Bytes → Py Bytes) (accept : RawPacket → Py Unit) (hacc : ∀ p, p.type = 19 → accept p = .ok ()) :
    ∃ (S : BlockCiphers) (sig : Sig) (z : Bytes), (signedMessage [sig] exText).compress toyZlib B Nat.log2 (fun _ => .ok []) 2 (some 6) = .ok (.compressed 2 z) ∧
      (z.length + 16 + 100 < 2 ^ 32 → ∃ e w received, symmetricEncrypt S toyHash Nat.log2 (fun _ => .ok []) (.compressed 2 z) 9 [1, 2, 3] (.simple 2 9)
          (List.replicate 32 7) (List.replicate 16 5) true = .ok e ∧ e.bytes Nat.log2 (fun _ => .ok []) = .ok w ∧ readMessage accept w = .ok received ∧
        received.getMessage S toyHash op accept (.passphrase true [1, 2, 3]) = .ok (.compressed 2 z)) := by
  obtain ⟨sig, hs⟩ := exText_signed true
  obtain ⟨_, h1, hs⟩ := except_bind_eq_ok.mp hs
  cases h1
  obtain ⟨sig', h2, hs⟩ := except_bind_eq_ok.mp hs
  cases hs
  obtain ⟨key, hkey, hkl⟩ : ∃ key, (S2K.simple 2 9).toKey toyHash [1, 2, 3] = .ok (some key) ∧ key.length = 32 := ⟨_, rfl, by decide +kernel⟩
  obtain ⟨z, h3, h4⟩ := C96_sign_compress_encrypt_partial toyZlib B toyZlib_works ⟨fun _ _ b => b, fun _ _ => true⟩ Nat.log2 (fun _ _ _ => rfl) toyHash toyHash_ok
    (fun _ => .ok []) op accept hacc 2 (by decide) (some 6) false rfl exText (.text _ _ _ (by decide) (by decide) (by decide)) _ (.text _ _ _) (by decide)
    [(exSigner, 1, 2, 1000)] (by simp) [sig] (.cons ⟨exSigner_ok _ _ _ (by decide), h2⟩ .nil) (.simple 2 9) (by show 2 < 256; decide) 16 32 true [1, 2, 3] key
    (List.replicate 32 7) (List.replicate 16 5) hkey ⟨rfl, by decide, rfl, fun b hb => hb⟩ ⟨rfl, by decide, rfl, fun b hb => hb⟩ (by decide) rfl (by decide)
    (by decide) rfl
  refine ⟨⟨fun _ _ b => b, fun _ _ => true⟩, sig, z, h3, fun hz => ?_⟩
  obtain ⟨e, w, r, k1, k2, k3, k4, _⟩ := h4 hz
  exact ⟨e, w, r, k1, k2, k3, k4⟩

/-- C96 (refuted): a message compressed with bzip2 (3) never opens, and with an algorithm the library does not know it cannot be made; a level
zlib does not take is passed on as its exception. -/
theorem C96_other_algorithms_refuted (Z : Zlib) (B : Bz2) (fl : Nat → Nat) (o : Nat → Py Bytes) (accept : RawPacket → Py Unit) (m : Msg)
    (lvl : Option Nat) :
    (∀ alg, 3 ≤ alg → ∀ z, Raises ((Msg.compressed alg z).contained Z B accept)) ∧
    (∀ alg, 4 ≤ alg → Raises (m.compress Z B fl o alg lvl)) := by
  refine ⟨fun alg ha z => ?_, fun alg ha => ?_⟩
  · obtain ⟨e, he⟩ := (C47_bzip2_never_opens_refuted Z B alg ha z).1
    exact ⟨e, by simp only [Msg.contained, he]; rfl⟩
  · unfold Msg.compress
    cases m.toPackets with
    | error e => exact ⟨e, rfl⟩
    | ok ps =>
      cases hr : ps.mapM (MPacket.raw fl o) with
      | error e => exact ⟨e, by simp only [except_bind_ok, hr]; rfl⟩
      | ok rs =>
        simp only [except_bind_ok, hr, compressPackets, getCompression, if_neg (show ¬ alg = 0 by omega), if_neg (show ¬ alg = 1 by omega),
          if_neg (show ¬ alg = 2 by omega), if_neg (show ¬ alg = 3 by omega)]
        cases hb : rs.mapM (Packet.toBytes 1) with
        | error e => exact ⟨e, rfl⟩
        | ok bs => exact ⟨_, rfl⟩

/-- C96: only compressed and signed messages hold a message that `get_message()` gives without a secret. -/
theorem C96_contained_only (Z : Zlib) (B : Bz2) (accept : RawPacket → Py Unit) (m : Msg) (i : Option Msg)
    (h : m.contained Z B accept = .ok i) : (∃ alg z, m = .compressed alg z ∧ alg ≤ 2) ∨ ∃ sigs op, m = .signed sigs i op := by
  cases m with
  | literal => cases h
  | encrypted => cases h
  | signed sigs j op => cases h; exact .inr ⟨sigs, op, rfl⟩
  | compressed alg z =>
    refine .inl ⟨alg, z, rfl, ?_⟩
    by_contra hn
    obtain ⟨e, he⟩ := (C96_other_algorithms_refuted Z B id (fun _ => .ok []) accept (.compressed alg z) none).1 alg (by omega) z
    rw [he] at h
    cases h

/-! ### C97: signing and the list of subpackets -/

/-- C97: signing any number of items without subpackets (None or an empty list): every signature is the one made by its call alone, stays as
it was made whatever happens to the caller's list, and the caller's list stays empty. -/
theorem C97_own_lists (fl : Nat → Nat) (H : Digest) (K : SignKey) (calls : List (Item × Nat × Nat × Nat)) (sigs : List (Sig × HashedArea))
    (l' : List Sub) (h : signAll fl H K 4 [] calls = .ok (sigs, l')) :
    l' = [] ∧ List.Forall₂ (fun c x => signItem fl H K c.1 4 c.2.1 c.2.2.1 [] c.2.2.2 = .ok x.1 ∧ ∀ l, Sig.withArea l x = x.1) calls sigs := by
  induction calls generalizing sigs l' with
  | nil => cases h; exact ⟨rfl, .nil⟩
  | cons c calls ih =>
    obtain ⟨i, t, hh, now⟩ := c
    simp only [signAll] at h
    obtain ⟨s, hs, h⟩ := except_bind_eq_ok.mp h
    obtain ⟨⟨rest, l2⟩, hr, h⟩ := except_bind_eq_ok.mp h
    cases h
    obtain ⟨h1, h2⟩ := ih rest l2 hr
    refine ⟨h1, .cons ⟨hs, fun l => ?_⟩ h2⟩
    obtain ⟨_, _, _, _, _, _, _, _, _, _, _, _, _, rfl⟩ := sign_shape hs
    rfl

example (m : Bytes) : ∃ sigs, signAll Nat.log2 toyHash exSigner 4 [] [(.document m, 0, 2, 1000), (.document [1], 0, 2, 1001)] = .ok (sigs, []) ∧
    sigs.length = 2 := ⟨_, rfl, rfl⟩

/-- C97 (refuted): with subpackets, signing puts two subpackets in front of the caller's list, and of the hashed subpackets of every
signature made with that list before: after signing `n` items the list begins with the issuer and creation time of the last. -/
theorem C97_caller_list_refuted (fl : Nat → Nat) (H : Digest) (K : SignKey) (s : Sub) (ss : List Sub) (i : Item) (t h now : Nat)
    (calls : List (Item × Nat × Nat × Nat)) (sigs : List (Sig × HashedArea)) (l' : List Sub)
    (hs : signAll fl H K 4 (s :: ss) (calls ++ [(i, t, h, now)]) = .ok (sigs, l')) :
    l' = ((calls ++ [(i, t, h, now)]).reverse.map fun c => [Sub.plain false (.issuer K.keyId), Sub.plain false (.creationTime c.2.2.2)]).flatten ++ s :: ss ∧
    ∀ x ∈ sigs, ∃ v t p h us h2 vs, Sig.withArea l' x = .v4 v t p h l' us h2 vs := by
  generalize calls ++ [(i, t, h, now)] = cs at hs
  clear i t h now
  induction cs generalizing s ss sigs l' with
  | nil => cases hs; exact ⟨rfl, by simp⟩
  | cons c cs ih =>
    obtain ⟨i, t, hh, now⟩ := c
    simp only [signAll] at hs
    obtain ⟨sg, hsg, hs⟩ := except_bind_eq_ok.mp hs
    obtain ⟨⟨rest, l2⟩, hr, hs⟩ := except_bind_eq_ok.mp hs
    cases hs
    simp only [listAfterSign, if_true] at hr
    obtain ⟨h1, h2⟩ := ih _ _ rest l2 hr
    refine ⟨?_, ?_⟩
    · rw [h1]
      simp
    · intro x hx
      rcases List.mem_cons.mp hx with rfl | hx
      · obtain ⟨_, _, _, _, _, _, _, _, _, _, _, _, _, rfl⟩ := sign_shape hsg
        exact ⟨_, _, _, _, _, _, _, rfl⟩
      · exact h2 x hx

theorem plain_nonempty {fl : Nat → Nat} {c : Bool} {v : Plain} {e : Bytes} (h : Sub.toBytes fl (.plain c v) = .ok e) : 1 ≤ e.length := by
  rw [Sub.toBytes] at h
  obtain ⟨w, _, h⟩ := except_bind_eq_ok.mp h
  unfold subBytes at h
  obtain ⟨⟨l, n⟩, _, h⟩ := except_bind_eq_ok.mp h
  obtain ⟨t, _, h⟩ := except_bind_eq_ok.mp h
  cases h
  simp only [List.length_append, List.length_singleton]
  omega

theorem trailer4_length (v t p h : UInt8) (w : Bytes) : (trailer4 v t p h w).length = w.length + 12 := by
  simp only [trailer4, List.length_append, List.length_cons, List.length_nil, beBytes_length]
  omega

/-- C97 (refuted): after a second signature with the same (non-empty) list, the first one no longer says it was made when it was, and the
octets it is now checked over are not those it was made over. -/
theorem C97_first_signature_refuted (fl : Nat → Nat) (H : Digest) (K : SignKey) (s : Sub) (ss : List Sub) (i j : Item) (t t' h h' now now' : Nat)
    (x y : Sig × HashedArea) (l' : List Sub)
    (hs : signAll fl H K 4 (s :: ss) [(i, t, h, now), (j, t', h', now')] = .ok ([x, y], l')) :
    ∃ a b, sigSignable fl x.1 = .ok a ∧ sigSignable fl (Sig.withArea l' x) = .ok b ∧ a ≠ b ∧
      ∃ h2 vs, x.1 = .v4 4 t K.alg h (.plain false (.issuer K.keyId) :: .plain false (.creationTime now) :: s :: ss) [] h2 vs ∧
        Sig.withArea l' x = .v4 4 t K.alg h (.plain false (.issuer K.keyId) :: .plain false (.creationTime now') ::
          .plain false (.issuer K.keyId) :: .plain false (.creationTime now) :: s :: ss) [] h2 vs := by
  simp only [signAll, listAfterSign, if_true] at hs
  obtain ⟨s1, h1, hs⟩ := except_bind_eq_ok.mp hs
  obtain ⟨⟨rest, l2⟩, hr, hs⟩ := except_bind_eq_ok.mp hs
  obtain ⟨s2, h2, hr⟩ := except_bind_eq_ok.mp hr
  simp only [except_bind_ok, except_pure] at hr
  cases hr
  cases hs
  obtain ⟨_, _, _, _, a1, b1, v1, hd1, e1, _, rfl, e2, e3, rfl⟩ := sign_shape h1
  obtain ⟨_, _, _, _, a2, b2, v2, hd2, f1, _, rfl, f2, f3, rfl⟩ := sign_shape h2
  simp only [if_true] at e2 f2 ⊢
  obtain ⟨w1, g1, k1, k2, k3, k4, rfl⟩ := sigSignable_v4_ok e2
  obtain ⟨w2, g2, _, _, _, _, rfl⟩ := sigSignable_v4_ok f2
  have e3' : ∃ b, sigSignable fl (.v4 4 t K.alg h (.plain false (.issuer K.keyId) :: .plain false (.creationTime now') ::
      .plain false (.issuer K.keyId) :: .plain false (.creationTime now) :: s :: ss) [] ((H h (a1 ++ trailer4 (UInt8.ofNat 4) (UInt8.ofNat t)
        (UInt8.ofNat K.alg) (UInt8.ofNat h) w1)).take 2) (v1.map some)) = .ok b ∧ b.length = w2.length + 12 := by
    simp only [sigSignable, g2, trailerV4, byteOf_lt k1, byteOf_lt k2, byteOf_lt k3, byteOf_lt k4, except_bind_ok, except_pure]
    refine ⟨_, rfl, ?_⟩
    simp only [List.length_append, List.length_cons, List.length_nil, intTo4byte_length]
    simp [intTo2byte]
    omega
  obtain ⟨b, hb, hbl⟩ := e3'
  refine ⟨_, b, e2, hb, ?_, _, _, rfl, rfl⟩
  have hw : w1.length < w2.length := by
    have hdef : ∀ x l, subsBytes fl (x :: l) = (do let a ← Sub.toBytes fl x; let b ← subsBytes fl l; return a ++ b) := fun _ _ => rfl
    rw [hdef] at g2
    obtain ⟨p1, q1, g2⟩ := except_bind_eq_ok.mp g2
    obtain ⟨p2, q2, g2⟩ := except_bind_eq_ok.mp g2
    cases g2
    rw [hdef] at q2
    obtain ⟨p3, q3, q2⟩ := except_bind_eq_ok.mp q2
    obtain ⟨p4, q4, q2⟩ := except_bind_eq_ok.mp q2
    cases q2
    rw [g1] at q4
    cases q4
    have := plain_nonempty q1
    simp only [List.length_append]
    omega
  intro he
  have := congrArg List.length he
  rw [trailer4_length, hbl] at this
  omega

/-- Two documents signed with one list holding a notation-like subpacket (exportable certification, type 4). -/
example : ∃ x y l', signAll Nat.log2 toyHash exSigner 4 [.plain false (.exportable true)]
    [(.document [1], 0, 2, 1000), (.document [2], 0, 2, 2000)] = .ok ([x, y], l') ∧ l'.length = 5 := ⟨_, _, _, rfl, rfl⟩

end Pgp.Props
