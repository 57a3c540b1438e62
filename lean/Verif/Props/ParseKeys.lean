import Verif.Lemmas.ParseKeys
import Verif.Lemmas.Lengths
import Verif.Lemmas.NoDiv
import Verif.Props.Parse
/-
Property theorems C74, C75 and C76: keys, key streams and user attributes read by the pgpdump based parser.
-/
namespace Pgp.Props
open Pgp Pgp.Spec

/-! ### The order of packets (C74) -/

/-- A version 4 key with a direct signature, a certified user id, an attribute and a bound subkey. -/
def exPgpdumpKey : List PPacket := [⟨6, 0, 4⟩, ⟨2, 0x1f, 0⟩, ⟨13, 0, 0⟩, ⟨2, 0x13, 0⟩, ⟨2, 0x10, 0⟩, ⟨17, 0, 0⟩, ⟨14, 0, 4⟩, ⟨2, 0x18, 0⟩, ⟨2, 0x28, 0⟩]

/-- C74. The check accepts exactly the packet sequences of the grammar. -/
theorem C74_accepts_iff (ps : List PPacket) : validatePublicKey ps = .ok () ↔ PublicKeySequence ps := by
  cases ps with
  | nil => exact ⟨nofun, fun ⟨_, _, _, _, _, h, _⟩ => nomatch h⟩
  | cons p ps =>
    have hdef : validatePublicKey (p :: ps) = if p.raw ≠ 6 then orderErr else validatePLoop p.version [] (p :: ps) := rfl
    rw [hdef]
    by_cases h6 : p.raw = 6
    · rw [if_neg (not_not.mpr h6)]
      have h1 : validatePLoop p.version [] (p :: ps) = validatePLoop p.version [p] ps := by
        simp only [validatePLoop, checkPPacket, if_pos h6, ne_eq, not_true_eq_false, if_false, except_bind_ok, List.nil_append]
      rw [h1, validatePLoop_iff p.version ps [p] .direct (PRel.start p h6) nofun]
      constructor
      · intro h
        obtain ⟨direct, uids, attrs, subs, e, rest⟩ := pAccepts_lang _ _ _ h
        exact ⟨p, direct, uids, attrs, subs, by rw [e], h6, rest⟩
      · rintro ⟨k, direct, uids, attrs, subs, e, _, rest⟩
        cases e
        exact lang_pAccepts _ _ ⟨direct, uids, attrs, subs, rfl, rest⟩
    · rw [if_pos h6]
      refine ⟨nofun, ?_⟩
      rintro ⟨k, direct, uids, attrs, subs, e, hk, _⟩
      cases e
      exact absurd hk h6

/-- The packets of a key after the first: their types, and the types of the signatures. -/
theorem sequence_tail {ps : List PPacket} (h : PublicKeySequence ps) : ∃ k tail, ps = k :: tail ∧ k.raw = 6 ∧ ∀ p ∈ tail, p.raw ∈ [2, 13, 14, 17] ∧
    (p.raw = 2 → p.sigType ∈ [0x1f, 0x20, 0x10, 0x11, 0x12, 0x13, 0x18, 0x28]) := by
  obtain ⟨k, direct, uids, attrs, subs, e, hk, hd, hu, ha, hg, _⟩ := h
  have sig : ∀ {types : List Nat} {p : PPacket}, PSigOf types p → (∀ t ∈ types, t ∈ [0x1f, 0x20, 0x10, 0x11, 0x12, 0x13, 0x18, 0x28]) →
      p.raw ∈ [2, 13, 14, 17] ∧ (p.raw = 2 → p.sigType ∈ [0x1f, 0x20, 0x10, 0x11, 0x12, 0x13, 0x18, 0x28]) := by
    intro types p hp ht
    exact ⟨by rw [hp.1]; decide, fun _ => ht _ hp.2⟩
  have part : ∀ {raw : Nat} {g : List PPacket} {p : PPacket}, raw = 13 ∨ raw = 17 → CertifiedPart raw g → p ∈ g →
      p.raw ∈ [2, 13, 14, 17] ∧ (p.raw = 2 → p.sigType ∈ [0x1f, 0x20, 0x10, 0x11, 0x12, 0x13, 0x18, 0x28]) := by
    rintro raw g p hraw ⟨u, certs, rfl, hu, hc⟩ hp
    rcases List.mem_cons.mp hp with rfl | hp
    · refine ⟨by rw [hu]; rcases hraw with rfl | rfl <;> decide, fun h2 => by rw [hu] at h2; omega⟩
    · exact sig (hc p hp) (by decide)
  refine ⟨k, _, e, hk, fun p hp => ?_⟩
  simp only [List.mem_append, List.mem_flatten] at hp
  rcases hp with ((hp | ⟨g, hg', hp⟩) | ⟨g, hg', hp⟩) | ⟨g, hg', hp⟩
  · exact sig (hd p hp) (by decide)
  · exact part (.inl rfl) (hu g hg') hp
  · exact part (.inr rfl) (ha g hg') hp
  · obtain ⟨s, b, r, rfl, hs, hb, hr⟩ := hg g hg'
    rcases List.mem_cons.mp hp with rfl | hp
    · exact ⟨by rw [hs]; decide, fun h2 => by rw [hs] at h2; cases h2⟩
    · rcases List.mem_cons.mp hp with rfl | hp
      · exact sig hb (by decide)
      · rcases hr with rfl | ⟨x, rfl, hx⟩
        · cases hp
        · rw [List.mem_singleton] at hp; subst hp
          exact sig hx (by decide)

/-- C74, against RFC 4880: a key with the revocation of a certification (0x30) is refused. -/
theorem C74_certification_revocation_refused (ps : List PPacket) (p : PPacket) (hp : p ∈ ps) (h2 : p.raw = 2) (h30 : p.sigType = 0x30) :
    Raises (validatePublicKey ps) := by
  cases h : validatePublicKey ps with
  | error e => exact ⟨e, rfl⟩
  | ok u =>
    obtain ⟨k, tail, rfl, hk, ht⟩ := sequence_tail ((C74_accepts_iff ps).mp h)
    rcases List.mem_cons.mp hp with rfl | hp
    · omega
    · have := (ht p hp).2 h2
      rw [h30] at this
      exact absurd this (by decide)

example := C74_certification_revocation_refused (exPgpdumpKey.take 4 ++ [⟨2, 0x30, 0⟩]) ⟨2, 0x30, 0⟩ (by decide) rfl rfl

/-! ### Streams of keys (C75) -/

/-- One key's packets, read up to the packet that ends them. -/
theorem loop_key {κ : Type} (parseKey : List PPacket → Py κ) (tail : List PPacket) (ht : ∀ p ∈ tail, p.raw ≠ 6) (packet : PPacket) (acc : List PPacket) (stream : PStream) :
    ∃ q acc', acc ++ packet :: tail = acc' ++ [q] ∧ keyStreamLoop parseKey packet acc (tail.map some ++ stream) = keyStreamLoop parseKey q acc' stream := by
  induction tail generalizing packet acc with
  | nil => exact ⟨packet, acc, rfl, rfl⟩
  | cons n tail ih =>
    obtain ⟨q, acc', e, h⟩ := ih (fun p hp => ht p (List.mem_cons_of_mem _ hp)) n (acc ++ [packet])
    refine ⟨q, acc', by rw [← e]; simp, ?_⟩
    rw [List.map_cons, List.cons_append, keyStreamLoop, if_neg (ht n List.mem_cons_self)]
    exact h

/-- A list of packets that begins with a key packet and has no other. -/
def OneKey (c : List PPacket) : Prop := ∃ k tail, c = k :: tail ∧ k.raw = 6 ∧ ∀ p ∈ tail, p.raw ≠ 6

theorem oneKey_of_sequence {ps : List PPacket} (h : PublicKeySequence ps) : OneKey ps := by
  obtain ⟨k, tail, e, hk, ht⟩ := sequence_tail h
  refine ⟨k, tail, e, hk, fun p hp h6 => ?_⟩
  have := (ht p hp).1
  rw [h6] at this
  exact absurd this (by decide)

theorem oneKey_parse {κ : Type} {parseKey : List PPacket → Py κ} {ps : List PPacket} (h : PublicKeySequence ps) : oneKey parseKey ps = parseKey ps := by
  unfold oneKey
  rw [(C74_accepts_iff ps).mpr h]; rfl

/-- A key followed by the start of another. -/
theorem loop_next {κ : Type} (parseKey : List PPacket → Py κ) {k : PPacket} {tail : List PPacket} (ht : ∀ p ∈ tail, p.raw ≠ 6) {n : PPacket} (hn : n.raw = 6) (rest : PStream) :
    keyStreamLoop parseKey k [] (tail.map some ++ some n :: rest) = yieldThen (oneKey parseKey (k :: tail)) (keyStreamLoop parseKey n [] rest) := by
  obtain ⟨q, acc', e, h⟩ := loop_key parseKey tail ht k [] (some n :: rest)
  rw [h, keyStreamLoop, if_pos hn, ← e]; rfl

/-- The loop over a list of keys, then whatever follows the last. -/
theorem loop_keys {κ : Type} (parseKey : List PPacket → Py κ) (f : List PPacket → κ) (good : List (List PPacket)) (hg : ∀ c ∈ good, PublicKeySequence c ∧ parseKey c = .ok (f c))
    (k : PPacket) (tail : List PPacket) (hk : k.raw = 6) (stream : PStream) (err : PyErr) :
    parseKeyStream parseKey err ((good.flatten ++ k :: tail).map some ++ stream) =
      ⟨good.map f ++ (keyStreamLoop parseKey k [] (tail.map some ++ stream)).keys, (keyStreamLoop parseKey k [] (tail.map some ++ stream)).stop⟩ := by
  cases good with
  | nil => rfl
  | cons c good =>
    obtain ⟨hc, hf⟩ := hg c List.mem_cons_self
    obtain ⟨k0, tail0, rfl, hk0, ht0⟩ := oneKey_of_sequence hc
    have main : ∀ (good : List (List PPacket)), (∀ c ∈ good, PublicKeySequence c ∧ parseKey c = .ok (f c)) → ∀ (k0 : PPacket) (tail0 : List PPacket),
        PublicKeySequence (k0 :: tail0) → parseKey (k0 :: tail0) = .ok (f (k0 :: tail0)) → (∀ p ∈ tail0, p.raw ≠ 6) →
        keyStreamLoop parseKey k0 [] ((tail0 ++ (good.flatten ++ k :: tail)).map some ++ stream) =
        ⟨f (k0 :: tail0) :: (good.map f ++ (keyStreamLoop parseKey k [] (tail.map some ++ stream)).keys), (keyStreamLoop parseKey k [] (tail.map some ++ stream)).stop⟩ := by
      intro good
      induction good with
      | nil =>
        intro _ k0 tail0 hc hf ht0
        rw [List.flatten_nil, List.nil_append, List.map_append, List.append_assoc, List.map_cons, List.cons_append, loop_next parseKey ht0 hk, oneKey_parse hc, hf]
        rfl
      | cons c good ih =>
        intro hg k0 tail0 hc hf ht0
        obtain ⟨hc1, hf1⟩ := hg c List.mem_cons_self
        obtain ⟨k1, tail1, rfl, hk1, ht1⟩ := oneKey_of_sequence hc1
        rw [List.flatten_cons, List.map_append, List.append_assoc, List.append_assoc, List.cons_append, List.map_cons, List.cons_append, loop_next parseKey ht0 hk1, oneKey_parse hc, hf,
          ih (fun c hc => hg c (List.mem_cons_of_mem _ hc)) k1 tail1 hc1 hf1 ht1]
        rfl
    rw [List.flatten_cons, List.append_assoc, List.cons_append, List.map_cons, List.cons_append]
    exact main good (fun c hc => hg c (List.mem_cons_of_mem _ hc)) k0 tail0 hc hf ht0

/-- C75. A stream of well formed keys is split into exactly those keys, in order, each with all its packets, and ends without an exception. -/
theorem C75_stream_of_keys_partial {κ : Type} (parseKey : List PPacket → Py κ) (f : List PPacket → κ) (keys : List (List PPacket)) (hne : keys ≠ [])
    (hk : ∀ c ∈ keys, PublicKeySequence c ∧ parseKey c = .ok (f c)) (err : PyErr) :
    parseKeyStream parseKey err (keys.flatten.map some) = ⟨keys.map f, .ok ()⟩ := by
  obtain ⟨good, c, rfl⟩ : ∃ good c, keys = good ++ [c] := ⟨keys.dropLast, keys.getLast hne, (List.dropLast_concat_getLast hne).symm⟩
  obtain ⟨hc, hf⟩ := hk c (by simp)
  obtain ⟨k, tail, rfl, hk6, ht⟩ := oneKey_of_sequence hc
  have := loop_keys parseKey f good (fun c hc => hk c (by simp [hc])) k tail hk6 [] err
  rw [List.append_nil, List.append_nil] at this
  rw [List.flatten_append, List.flatten_cons, List.flatten_nil, List.append_nil, this]
  obtain ⟨q, acc', e, h⟩ := loop_key parseKey tail ht k [] []
  rw [List.append_nil] at h
  rw [h, keyStreamLoop, ← e, List.nil_append, oneKey_parse hc, hf, List.map_append]
  rfl

theorem exPgpdumpKey_sequence : PublicKeySequence exPgpdumpKey := (C74_accepts_iff _).mp (by decide +kernel)

example := C75_stream_of_keys_partial (fun c => .ok c.length) List.length [exPgpdumpKey, exPgpdumpKey] (by simp)
  (by intro c hc; have : c = exPgpdumpKey := by simpa using hc
      subst this; exact ⟨exPgpdumpKey_sequence, rfl⟩) .valueError

/-- C75 fails: a key that is not well formed ends the reading: the keys after it, well formed or not, are never seen. -/
theorem C75_bad_key_stops {κ : Type} (parseKey : List PPacket → Py κ) (f : List PPacket → κ) (good : List (List PPacket))
    (hg : ∀ c ∈ good, PublicKeySequence c ∧ parseKey c = .ok (f c)) (bad : List PPacket) (hb : OneKey bad) (hbad : ¬ PublicKeySequence bad)
    (rest : List (List PPacket)) (hr : ∀ c ∈ rest, OneKey c) (err : PyErr) :
    ∃ e, parseKeyStream parseKey err ((good.flatten ++ bad ++ rest.flatten).map some) = ⟨good.map f, .error e⟩ := by
  obtain ⟨k, tail, rfl, hk6, ht⟩ := hb
  have hv : ∃ e, oneKey parseKey (k :: tail) = .error e := by
    unfold oneKey
    cases h : validatePublicKey (k :: tail) with
    | error e => exact ⟨e, rfl⟩
    | ok u => exact absurd ((C74_accepts_iff _).mp h) hbad
  obtain ⟨e, he⟩ := hv
  refine ⟨e, ?_⟩
  rw [List.append_assoc, List.cons_append]
  have := loop_keys parseKey f good hg k (tail ++ rest.flatten) hk6 [] err
  rw [List.append_nil, List.append_nil] at this
  rw [this]
  have key : keyStreamLoop parseKey k [] ((tail ++ rest.flatten).map some) = ⟨[], .error e⟩ := by
    cases rest with
    | nil =>
      obtain ⟨q, acc', e1, h⟩ := loop_key parseKey tail ht k [] []
      rw [List.append_nil] at h
      rw [List.flatten_nil, List.append_nil, h, keyStreamLoop, ← e1, List.nil_append, he]; rfl
    | cons c rest =>
      obtain ⟨k1, tail1, rfl, hk1, _⟩ := hr c List.mem_cons_self
      rw [List.flatten_cons, List.map_append, List.cons_append, List.map_cons, loop_next parseKey ht hk1, he]; rfl
  rw [key, List.append_nil]

/-- A good key, then one with a certification before any user id, then a good one. -/
example := C75_bad_key_stops (fun c => .ok c.length) List.length [exPgpdumpKey] (fun c hc => by
    rw [List.mem_singleton] at hc; subst hc; exact ⟨exPgpdumpKey_sequence, rfl⟩) (⟨6, 0, 4⟩ :: [⟨2, 0x10, 0⟩]) ⟨_, _, rfl, rfl, by decide⟩
  (fun h => by have := (C74_accepts_iff _).mpr h; revert this; decide +kernel) [exPgpdumpKey]
  (fun c hc => by rw [List.mem_singleton] at hc; subst hc; exact oneKey_of_sequence exPgpdumpKey_sequence) .valueError

/-- Once two key packets begin a key, nothing is ever yielded. -/
theorem loop_doubled {κ : Type} (parseKey : List PPacket → Py κ) (n : Nat) : ∀ (stream : PStream), stream.length ≤ n → ∀ (packet : PPacket) (acc : List PPacket) (k k' : PPacket)
    (l : List PPacket), acc ++ [packet] = k :: k' :: l → k'.raw = 6 → (keyStreamLoop parseKey packet acc stream).keys = [] := by
  have bad : ∀ (k k' : PPacket) (l : List PPacket), k'.raw = 6 → ∃ e, oneKey parseKey (k :: k' :: l) = .error e := by
    intro k k' l h6
    unfold oneKey
    cases h : validatePublicKey (k :: k' :: l) with
    | error e => exact ⟨e, rfl⟩
    | ok u =>
      obtain ⟨_, tail, e, _, ht⟩ := oneKey_of_sequence ((C74_accepts_iff _).mp h)
      cases e
      exact absurd h6 (ht k' List.mem_cons_self)
  induction n with
  | zero =>
    intro stream hs packet acc k k' l e h6
    obtain rfl : stream = [] := List.length_eq_zero_iff.mp (by omega)
    obtain ⟨x, hx⟩ := bad k k' l h6
    rw [keyStreamLoop, e, hx]; rfl
  | succ n ih =>
    intro stream hs packet acc k k' l e h6
    obtain ⟨x, hx⟩ := bad k k' l h6
    match stream, hs with
    | [], _ => rw [keyStreamLoop, e, hx]; rfl
    | none :: rest, hs =>
      rw [keyStreamLoop]
      split
      · rfl
      · rename_i p m rest' h
        have hlen := skipToKey_length rest 1 true
        rw [h] at hlen
        have h6' : p.raw = 6 := by
          have : ∀ (s : PStream) (n : Nat) (f : Bool) (p : PPacket) (m : Nat) (r : PStream), skipToKey s n f = (some p, m, r) → p.raw = 6 := by
            intro s
            induction s with
            | nil => intro n f p m r h; cases h
            | cons y s ih =>
              intro n f p m r h
              cases y with
              | none =>
                simp only [skipToKey] at h
                obtain ⟨h1, _⟩ := Prod.mk.inj h
                exact ih 1 true p _ _ (Prod.ext h1 rfl)
              | some y =>
                simp only [skipToKey] at h
                split at h
                · rename_i h6; cases h; exact h6
                · exact ih _ _ _ _ _ h
          exact this _ _ _ _ _ _ h
        exact ih rest' (by simp only [List.length_cons] at hs hlen; omega) p [p] p p [] rfl h6'
    | some y :: rest, hs =>
      rw [keyStreamLoop]
      split
      · rw [e, hx]; rfl
      · exact ih rest (by simp only [List.length_cons] at hs; omega) y (acc ++ [packet]) k k' (l ++ [y]) (by rw [e]; rfl) h6

/-- C75 fails: after an exception from the packet reader no key is ever yielded, whatever follows, and the key being read, complete or not, is lost: the key packet
that is found is put in the next key twice. -/
theorem C75_nothing_after_error {κ : Type} (parseKey : List PPacket → Py κ) (f : List PPacket → κ) (good : List (List PPacket))
    (hg : ∀ c ∈ good, PublicKeySequence c ∧ parseKey c = .ok (f c)) (current : List PPacket) (hc : OneKey current) (rest : PStream) (err : PyErr) :
    (parseKeyStream parseKey err ((good.flatten ++ current).map some ++ none :: rest)).keys = good.map f := by
  obtain ⟨k, tail, rfl, hk6, ht⟩ := hc
  rw [loop_keys parseKey f good hg k tail hk6 (none :: rest) err]
  obtain ⟨q, acc', e1, h⟩ := loop_key parseKey tail ht k [] (none :: rest)
  have : (keyStreamLoop parseKey q acc' (none :: rest)).keys = [] := by
    rw [keyStreamLoop]
    split
    · rfl
    · rename_i p m rest' hs
      have h6' : p.raw = 6 := by
        have : ∀ (s : PStream) (n : Nat) (f : Bool) (p : PPacket) (m : Nat) (r : PStream), skipToKey s n f = (some p, m, r) → p.raw = 6 := by
          intro s
          induction s with
          | nil => intro n f p m r h; cases h
          | cons y s ih =>
            intro n f p m r h
            cases y with
            | none =>
              simp only [skipToKey] at h
              obtain ⟨h1, _⟩ := Prod.mk.inj h
              exact ih 1 true p _ _ (Prod.ext h1 rfl)
            | some y =>
              simp only [skipToKey] at h
              split at h
              · rename_i h6; cases h; exact h6
              · exact ih _ _ _ _ _ h
        exact this _ _ _ _ _ _ hs
      exact loop_doubled parseKey rest'.length rest' (Nat.le_refl _) p [p] p p [] rfl h6'
  rw [h, this, List.append_nil]

example := C75_nothing_after_error (fun c => .ok c.length) List.length [exPgpdumpKey] (fun c hc => by
    rw [List.mem_singleton] at hc; subst hc; exact ⟨exPgpdumpKey_sequence, rfl⟩) exPgpdumpKey (oneKey_of_sequence exPgpdumpKey_sequence)
  (exPgpdumpKey.map some) .valueError

/-- C75 fails for the parser as it is: with its own key reader no key is ever yielded, and an empty stream is a RuntimeError. -/
theorem C75_default_never_yields (keys : List (List PPacket)) (hne : keys ≠ []) (hk : ∀ c ∈ keys, PublicKeySequence c) (err : PyErr) :
    (parseKeyStream parseKeyDefault err (keys.flatten.map some)) = ⟨[], .error .typeError⟩ ∧ (parseKeyStream parseKeyDefault err []).stop = .error .runtimeError := by
  refine ⟨?_, rfl⟩
  match keys, hne with
  | c :: keys, _ =>
    have hc := hk c List.mem_cons_self
    obtain ⟨k, tail, rfl, hk6, ht⟩ := oneKey_of_sequence hc
    rw [List.flatten_cons, List.cons_append, List.map_cons]
    show keyStreamLoop parseKeyDefault k [] ((tail ++ keys.flatten).map some) = _
    cases keys with
    | nil =>
      obtain ⟨q, acc', e1, h⟩ := loop_key parseKeyDefault tail ht k [] []
      rw [List.append_nil] at h
      rw [List.flatten_nil, List.append_nil, h, keyStreamLoop, ← e1, List.nil_append, oneKey_parse hc]; rfl
    | cons c2 keys =>
      obtain ⟨k1, tail1, rfl, hk1, _⟩ := oneKey_of_sequence (hk c2 (by simp))
      rw [List.flatten_cons, List.map_append, List.cons_append, List.map_cons, loop_next parseKeyDefault ht hk1, oneKey_parse hc]; rfl

example := C75_default_never_yields [exPgpdumpKey] (by simp) (fun c hc => by rw [List.mem_singleton] at hc; subst hc; exact exPgpdumpKey_sequence) .valueError

/-! ### Images (C76) -/

/-- The image header of RFC 4880 section 5.12.1: sixteen octets, version 1, an encoding, twelve zeros. -/
def imageHeader (f : UInt8) : Bytes := [16, 0, 1, f] ++ List.replicate 12 0

theorem attrItems_image (mime : Bytes → Py Str) (pu : Bool) (f : UInt8) (hf : f = 1 ∨ (100 ≤ f.toNat ∧ f.toNat ≤ 110)) (image : Bytes) :
    attrItems mime pu 1 (imageHeader f ++ image) = (mime (image.take 1024)).map fun m => [⟨1, image, m⟩] := by
  unfold attrItems
  rw [if_neg (by simp)]
  have e : ∀ (x : UInt8), imageHeader x ++ image = 16 :: 0 :: 1 :: x :: 0 :: 0 :: 0 :: 0 :: 0 :: 0 :: 0 :: 0 :: 0 :: 0 :: 0 :: 0 :: image := fun x => rfl
  rw [e]
  have hs : slice (16 :: 0 :: 1 :: f :: 0 :: 0 :: 0 :: 0 :: 0 :: 0 :: 0 :: 0 :: 0 :: 0 :: 0 :: 0 :: image) 16 1040 = image.take 1024 := by simp [slice]
  have hz : (slice (16 :: 0 :: 1 :: f :: 0 :: 0 :: 0 :: 0 :: 0 :: 0 :: 0 :: 0 :: 0 :: 0 :: 0 :: 0 :: image) 4 16).any (· ≠ 0) = false := by simp [slice]
  have hf' : f = 1 ∨ (99 < f.toNat ∧ f.toNat < 111) := by rcases hf with h | h; exact .inl h; exact .inr ⟨by omega, by omega⟩
  simp only [idx, List.drop_zero, List.drop_succ_cons, except_bind_ok, if_true, hz, hs, Bool.false_eq_true, if_false, if_pos hf']
  rw [if_neg (by decide)]
  cases mime (image.take 1024) <;> rfl

/-- C76 (part). The only subpacket of an attribute, an image in the documented form with any length octets, is read exactly. -/
theorem C76_single_image_partial (mime : Bytes → Py Str) (pu : Bool) (f : UInt8) (hf : f = 1 ∨ (100 ≤ f.toNat ∧ f.toNat ≤ 110)) (image e : Bytes)
    (he : NewDefinite e (17 + image.length)) (m : Str) (hm : mime (image.take 1024) = .ok m) :
    parseUserAttr mime pu (e ++ [1] ++ imageHeader f ++ image) = .ok [⟨1, image, m⟩] := by
  have hlen : (e ++ [1] ++ imageHeader f ++ image).length = e.length + 17 + image.length := by simp [imageHeader]; omega
  have hp := newPacketLength_definite (data := e ++ [1] ++ imageHeader f ++ image) (off := 0) (s := [1] ++ imageHeader f ++ image) (by simp) he
  have hi : idx (e ++ [1] ++ imageHeader f ++ image) e.length = .ok 1 := by
    unfold idx; rw [List.append_assoc, List.append_assoc, List.drop_left]; rfl
  have hsl : slice (e ++ [1] ++ imageHeader f ++ image) (e.length + 1) (e.length + 1 + (17 + image.length)) = imageHeader f ++ image := by
    unfold slice
    rw [show e ++ [1] ++ imageHeader f ++ image = (e ++ [1]) ++ (imageHeader f ++ image) by simp, List.drop_left' (by simp)]
    exact List.take_of_length_le (by simp [imageHeader]; omega)
  unfold parseUserAttr
  rw [hlen]
  obtain ⟨n, hn⟩ : ∃ n, e.length + 17 + image.length + 1 = n + 2 := ⟨e.length + 16 + image.length, by omega⟩
  rw [hn]
  have hstop : ∀ k, userAttrLoop mime pu (e ++ [1] ++ imageHeader f ++ image) (k + 1) (e.length + 1 + (17 + image.length)) = .ok [] := by
    intro k; rw [userAttrLoop, if_pos (by rw [hlen]; omega)]
  rw [userAttrLoop, if_neg (by rw [hlen]; omega), hp]
  simp only [except_bind_ok, Nat.zero_add, Bool.false_eq_true, if_false, hi, hsl, attrItems_image mime pu f hf, hm, Except.map, hstop, except_pure, List.append_nil]

example := C76_single_image_partial (fun _ => .ok "image/jpeg".toList) false 1 (.inl rfl) [7, 8, 9] [20] (.one 20 (by decide)) _ rfl

/-- C76 fails: when another subpacket follows, its first octet is taken for the end of the image. -/
theorem C76_takes_next_octet (mime : Bytes → Py Str) (pu : Bool) (f : UInt8) (hf : f = 1 ∨ (100 ≤ f.toNat ∧ f.toNat ≤ 110)) (image e : Bytes)
    (he : NewDefinite e (17 + image.length)) (x : UInt8) (more : Bytes) (items : List PAttr)
    (h : parseUserAttr mime pu (e ++ [1] ++ imageHeader f ++ image ++ x :: more) = .ok items) : ∃ m rest, items = ⟨1, image ++ [x], m⟩ :: rest := by
  have hp := newPacketLength_definite (data := e ++ [1] ++ imageHeader f ++ image ++ x :: more) (off := 0) (s := [1] ++ imageHeader f ++ image ++ x :: more) (by simp) he
  have hi : idx (e ++ [1] ++ imageHeader f ++ image ++ x :: more) e.length = .ok 1 := by
    unfold idx; rw [List.append_assoc, List.append_assoc, List.append_assoc, List.drop_left]; rfl
  have hsl : slice (e ++ [1] ++ imageHeader f ++ image ++ x :: more) (e.length + 1) (e.length + 1 + (17 + image.length)) = imageHeader f ++ (image ++ [x]) := by
    unfold slice
    rw [show e ++ [1] ++ imageHeader f ++ image ++ x :: more = (e ++ [1]) ++ ((imageHeader f ++ (image ++ [x])) ++ more) by simp, List.drop_left' (by simp)]
    exact List.take_left' (by simp [imageHeader]; omega)
  unfold parseUserAttr at h
  rw [userAttrLoop, if_neg (by simp), hp] at h
  simp only [except_bind_ok, Nat.zero_add, Bool.false_eq_true, if_false, hi, hsl, attrItems_image mime pu f hf] at h
  cases hm : mime ((image ++ [x]).take 1024) with
  | error er => rw [hm] at h; cases h
  | ok m =>
    rw [hm] at h
    simp only [Except.map, except_bind_ok] at h
    obtain ⟨rest, _, h⟩ := except_bind_eq_ok.mp h
    cases h
    exact ⟨m, rest, rfl⟩

/-- Two images: the length octet of the second becomes part of the first, and what is left is refused or misread. -/
example : (parseUserAttr (fun _ => .ok []) false ([20, 1] ++ imageHeader 1 ++ [7, 8, 9] ++ 2 :: [77, 5])).map (fun l => l.map (·.content)) = .ok [[7, 8, 9, 2]] := by
  decide +kernel

/-- C76. Reading an attribute always comes to an end. -/
theorem C76_terminates (mime : Bytes → Py Str) (hm : ∀ b, NoDiv (mime b)) (pu : Bool) (data : Bytes) : NoDiv (parseUserAttr mime pu data) := by
  have items : ∀ t d, NoDiv (attrItems mime pu t d) := by
    intro t d
    unfold attrItems
    refine noDiv_ite (noDiv_ok _) (noDiv_bind (noDiv_idx _ _) fun a _ => noDiv_bind (noDiv_idx _ _) fun b _ => noDiv_bind (noDiv_idx _ _) fun v _ => ?_)
    refine noDiv_ite (noDiv_ite (noDiv_ok _) (noDiv_bind (noDiv_idx _ _) fun f _ => noDiv_ite (noDiv_ok _) (noDiv_ite (noDiv_bind (hm _) fun _ _ => noDiv_ok _) (noDiv_ok _)))) ?_
    exact noDiv_ite (noDiv_bind (hm _) fun _ _ => noDiv_ok _) (noDiv_ok _)
  have loop : ∀ fuel offset, data.length < offset + fuel → 0 < fuel → NoDiv (userAttrLoop mime pu data fuel offset) := by
    intro fuel
    induction fuel with
    | zero => intro o _ h; omega
    | succ fuel ih =>
      intro o hlt _
      rw [userAttrLoop]
      split
      · exact noDiv_ok _
      · rename_i hle
        refine noDiv_bind (noDiv_newPacketLength _ _) fun r hr => ?_
        obtain ⟨so, sl, pt⟩ := r
        simp only
        refine noDiv_ite (noDiv_ok _) (noDiv_bind (noDiv_idx _ _) fun t _ => noDiv_bind (items _ _) fun it _ => noDiv_bind ?_ fun _ _ => noDiv_ok _)
        cases fuel with
        | zero => omega
        | succ fuel => exact ih _ (by omega) (by omega)
  exact loop _ _ (by omega) (by omega)

/-! ### A case -/

example : validatePublicKey exPgpdumpKey = .ok () := by decide +kernel

example : PublicKeySequence exPgpdumpKey := (C74_accepts_iff _).mp (by decide +kernel)

/-- The number of packets of each key of a stream; after an exception of the reader, nothing. -/
example : (parseKeyStream (fun c => .ok c.length) .valueError ((exPgpdumpKey ++ exPgpdumpKey).map some)).keys = [9, 9] ∧
    (parseKeyStream (fun c => .ok c.length) .valueError ((exPgpdumpKey ++ exPgpdumpKey).map some ++ none :: exPgpdumpKey.map some)).keys = [9] := by
  constructor
  · have := C75_stream_of_keys_partial (fun c => .ok c.length) List.length [exPgpdumpKey, exPgpdumpKey] (by simp)
      (by intro c hc; have : c = exPgpdumpKey := by simpa using hc
          subst this; exact ⟨(C74_accepts_iff _).mp (by decide +kernel), rfl⟩) .valueError
    have e : [exPgpdumpKey, exPgpdumpKey].flatten = exPgpdumpKey ++ exPgpdumpKey := by simp
    rw [e] at this
    rw [this]; rfl
  · have := C75_nothing_after_error (fun c => .ok c.length) List.length [exPgpdumpKey]
      (by intro c hc; have : c = exPgpdumpKey := by simpa using hc
          subst this; exact ⟨(C74_accepts_iff _).mp (by decide +kernel), rfl⟩) exPgpdumpKey
      (oneKey_of_sequence ((C74_accepts_iff _).mp (by decide +kernel))) (exPgpdumpKey.map some) .valueError
    have e : [exPgpdumpKey].flatten ++ exPgpdumpKey = exPgpdumpKey ++ exPgpdumpKey := by simp
    rw [e] at this
    rw [this]; rfl

/-- A small image, and the same followed by another. -/
example : parseUserAttr (fun _ => .ok []) false ([20, 1] ++ imageHeader 1 ++ [7, 8, 9]) = .ok [⟨1, [7, 8, 9], []⟩] ∧
    (parseUserAttr (fun _ => .ok []) false ([20, 1] ++ imageHeader 1 ++ [7, 8, 9] ++ [2, 77, 5])).map (fun l => l.map (·.content)) = .ok [[7, 8, 9, 2]] := by
  constructor <;> decide +kernel

end Pgp.Props
