import Verif.Lemmas.KeysRound
/-
Property theorems C35 and C36 (transferable keys).
-/
namespace Pgp.Props
open Spec

/-! ### A key that meets the hypotheses -/

def exKey : PubKey := { version := 4, creationTime := 1, algorithm := 1, modulus := some 15, exponent := some 3 }
def exSig (t : Nat) : Sig := .v4 4 t 1 2 [] [] [0, 0] [some 1]
def exPackets : List KPacket :=
  [⟨.new, .key false false exKey none⟩, ⟨.new, .sig (exSig 0x1f)⟩, ⟨.new, .uid "a".toList⟩, ⟨.new, .sig (exSig 0x13)⟩, ⟨.old, .sig (exSig 0x10)⟩,
   ⟨.new, .attr [.image 1 16 (some 1) [1, 2]]⟩, ⟨.new, .sig (exSig 0x13)⟩, ⟨.new, .key false true exKey none⟩, ⟨.new, .sig (exSig 0x18)⟩]

theorem exPackets_ok : validateKey false (exPackets.map KPacket.body) = .ok () ∧ ∀ magic, ∀ p ∈ exPackets, Modern magic p.body := by
  refine ⟨rfl, fun magic p hp => ?_⟩
  simp only [exPackets, List.mem_cons, List.not_mem_nil, or_false] at hp
  rcases hp with rfl | rfl | rfl | rfl | rfl | rfl | rfl | rfl | rfl <;> simp [Modern, exKey, exSig, SigV4, StdImage]

/-- A trust packet after the first certification: accepted, and the rest is gone. -/
theorem exTrust_ok : validateKey false ((exPackets.take 4 ++ ⟨.new, .trust ⟨0, none⟩⟩ :: exPackets.drop 4).map KPacket.body) = .ok () := rfl

/-- C35: a packet sequence is accepted as a transferable key exactly if it is in the grammar: a primary key; direct key signatures and
revocations; user ids, each with certifications; user attributes, each with certifications; subkeys, each with binding signatures. -/
theorem C35_accepts_iff_grammar (secret : Bool) (ps : List KBody) : validateKey secret ps = .ok () ↔ KeySequence secret ps :=
  validateKey_iff secret ps

theorem groups_mem {G : List KBody → Prop} {l : List KBody} (h : Groups G l) {p : KBody} (hp : p ∈ l) : ∃ g, G g ∧ p ∈ g := by
  obtain ⟨gs, rfl, hg⟩ := h
  obtain ⟨g, hg', hp⟩ := List.mem_flatten.mp hp
  exact ⟨g, hg g hg', hp⟩

/-- Every packet of an accepted sequence. -/
theorem accepted_packets {secret : Bool} {ps : List KBody} (h : KeySequence secret ps) {p : KBody} (hp : p ∈ ps) :
    (∃ sub k priv, p = .key secret sub k priv) ∨ (∃ s, p = .sig s ∧ s.sigType ∈ [0x10, 0x11, 0x12, 0x13, 0x18, 0x1f, 0x20, 0x30]) ∨
    (∃ s, p = .uid s) ∨ (∃ as, p = .attr as) ∨ ∃ t, p = .trust t := by
  have run : ∀ {types : List Nat} {a : Bool} {l : List KBody}, (∀ t ∈ types, t ∈ [0x10, 0x11, 0x12, 0x13, 0x18, 0x1f, 0x20, 0x30]) →
      SigRun types a l → p ∈ l → (∃ s, p = .sig s ∧ s.sigType ∈ [0x10, 0x11, 0x12, 0x13, 0x18, 0x1f, 0x20, 0x30]) ∨ ∃ t, p = .trust t := by
    intro types a l ht hr hp
    rcases hr.1 p hp with h | h
    · cases p <;> first | exact h.elim | exact Or.inl ⟨_, rfl, ht _ h⟩
    · cases p <;> first | exact h.elim | exact Or.inr ⟨_, rfl⟩
  obtain ⟨k, priv, d, u, a, s, rfl, h1, h2, h3, h4⟩ := h
  simp only [List.mem_cons, List.mem_append] at hp
  rcases hp with rfl | ((hp | hp) | hp) | hp
  · exact Or.inl ⟨_, _, _, rfl⟩
  · rcases run (by decide) h1.1 hp with h | h
    · exact Or.inr (Or.inl h)
    · exact Or.inr (Or.inr (Or.inr (Or.inr h)))
  · obtain ⟨g, ⟨x, b, rfl, hb⟩, hp⟩ := groups_mem h2 hp
    rcases List.mem_cons.mp hp with rfl | hp
    · exact Or.inr (Or.inr (Or.inl ⟨_, rfl⟩))
    · rcases run (by decide) hb hp with h | h
      · exact Or.inr (Or.inl h)
      · exact Or.inr (Or.inr (Or.inr (Or.inr h)))
  · obtain ⟨g, ⟨x, b, rfl, hb⟩, hp⟩ := groups_mem h3 hp
    rcases List.mem_cons.mp hp with rfl | hp
    · exact Or.inr (Or.inr (Or.inr (Or.inl ⟨_, rfl⟩)))
    · rcases run (by decide) hb hp with h | h
      · exact Or.inr (Or.inl h)
      · exact Or.inr (Or.inr (Or.inr (Or.inr h)))
  · obtain ⟨g, ⟨x, y, b, rfl, _, hb⟩, hp⟩ := groups_mem h4.1 hp
    rcases List.mem_cons.mp hp with rfl | hp
    · exact Or.inl ⟨_, _, _, rfl⟩
    · rcases run (by decide) hb hp with h | h
      · exact Or.inr (Or.inl h)
      · exact Or.inr (Or.inr (Or.inr (Or.inr h)))

/-- C35: an accepted sequence starts with a primary key of the wanted kind, has no other, no key packet of the other kind, and no packet
that does not belong in a key. -/
theorem C35_accepted_shape (secret : Bool) (ps : List KBody) (h : validateKey secret ps = .ok ()) :
    (∃ k priv rest, ps = .key secret false k priv :: rest ∧ ∀ p ∈ rest, ∀ sec k' priv', p ≠ .key sec false k' priv') ∧
    (∀ p ∈ ps, p.type ∈ [2, 12, 13, 17] ∨ ∃ sub k priv, p = .key secret sub k priv) := by
  have hg := (validateKey_iff secret ps).mp h
  constructor
  · obtain ⟨k, priv, d, u, a, s, rfl, h1, h2, h3, h4⟩ := hg
    refine ⟨k, priv, _, rfl, ?_⟩
    rintro p hp sec k' priv' rfl
    have norun : ∀ {types : List Nat} {a : Bool} {l : List KBody}, SigRun types a l → KBody.key sec false k' priv' ∉ l := by
      intro types a l hr hp
      rcases hr.1 _ hp with h | h <;> exact h.elim
    simp only [List.mem_append] at hp
    rcases hp with ((hp | hp) | hp) | hp
    · exact norun h1.1 hp
    · obtain ⟨g, ⟨x, b, rfl, hb⟩, hp⟩ := groups_mem h2 hp
      rcases List.mem_cons.mp hp with h | hp
      · cases h
      · exact norun hb hp
    · obtain ⟨g, ⟨x, b, rfl, hb⟩, hp⟩ := groups_mem h3 hp
      rcases List.mem_cons.mp hp with h | hp
      · cases h
      · exact norun hb hp
    · obtain ⟨g, ⟨x, y, b, rfl, _, hb⟩, hp⟩ := groups_mem h4.1 hp
      rcases List.mem_cons.mp hp with h | hp
      · cases h
      · exact norun hb hp
  · intro p hp
    rcases accepted_packets hg hp with h | ⟨s, rfl, _⟩ | ⟨s, rfl⟩ | ⟨s, rfl⟩ | ⟨s, rfl⟩
    · exact Or.inr h
    · exact Or.inl (by simp [KBody.type])
    · exact Or.inl (by simp [KBody.type])
    · exact Or.inl (by simp [KBody.type])
    · exact Or.inl (by simp [KBody.type])

example := C35_accepted_shape false (exPackets.map KPacket.body) exPackets_ok.1

/-- C35: no key with a revoked subkey is accepted: the rule for subkey revocations asks for one before it. -/
theorem C35_subkey_revocation_refuted (secret : Bool) (ps : List KBody) (s : Sig) (hs : s.sigType = 0x28) (hm : .sig s ∈ ps) :
    validateKey secret ps ≠ .ok () := by
  intro h
  rcases accepted_packets ((validateKey_iff secret ps).mp h) hm with ⟨_, _, _, h⟩ | ⟨s', h, ht⟩ | ⟨_, h⟩ | ⟨_, h⟩ | ⟨_, h⟩ <;> cases h
  rw [hs] at ht
  exact absurd ht (by decide)

/-- The same key with its subkey revoked. -/
example := C35_subkey_revocation_refuted false (exPackets.map KPacket.body ++ [.sig (exSig 0x28)]) (exSig 0x28) rfl (by simp)

/-- C36: a modern key (see `Modern`) comes back from the object exactly as it went in, packet by packet. -/
theorem C36_roundtrip_partial (magic : Bytes → Str) (secret : Bool) (ps : List KPacket) (hv : validateKey secret (ps.map KPacket.body) = .ok ())
    (hm : ∀ p ∈ ps, Modern magic p.body) : ∃ k, TKey.fromPackets magic secret ps = .ok k ∧ k.toPackets = .ok ps :=
  key_roundtrip magic secret ps ((validateKey_iff secret _).mp hv) hm

example (magic : Bytes → Str) := C36_roundtrip_partial magic false exPackets exPackets_ok.1 (exPackets_ok.2 magic)

/-! ### Trust packets -/

theorem takeSigs_append {T : List KPacket} (hT : HeadNot IsSigK T) (ps : List KPacket) : takeSigs (ps ++ T) = ((takeSigs ps).1, (takeSigs ps).2 ++ T) := by
  induction ps with
  | nil => exact takeSigs_nonsig hT
  | cons p ps ih =>
    obtain ⟨f, b⟩ := p
    cases b with
    | sig s => rw [List.cons_append, takeSigs, takeSigs, ih]
    | _ => rfl

theorem takeSigs_len (ps : List KPacket) : (takeSigs ps).2.length ≤ ps.length := by
  induction ps with
  | nil => simp [takeSigs]
  | cons p ps ih =>
    obtain ⟨f, b⟩ := p
    cases b with
    | sig s => rw [takeSigs]; simp only [List.length_cons]; omega
    | _ => simp [takeSigs]

theorem takeUids_append {T : List KPacket} (hT : HeadNot IsSigK T) (hT' : HeadNot IsUid T) : ∀ (fuel fuel' : Nat) (ps : List KPacket), ps.length ≤ fuel →
    fuel ≤ fuel' → takeUids fuel' (ps ++ T) = ((takeUids fuel ps).1, (takeUids fuel ps).2 ++ T) := by
  intro fuel
  induction fuel with
  | zero =>
    intro fuel' ps hps _
    have : ps = [] := List.length_eq_zero_iff.mp (by omega)
    subst this
    have h0 := takeUids_run hT hT' [] (fun _ h => absurd h List.not_mem_nil) fuel' (by simp)
    exact h0
  | succ fuel ih =>
    intro fuel' ps hps hf
    cases ps with
    | nil => exact takeUids_run hT hT' [] (fun _ h => absurd h List.not_mem_nil) fuel' (by simp)
    | cons p ps =>
      obtain ⟨f', rfl⟩ : ∃ f', fuel' = f' + 1 := ⟨fuel' - 1, by omega⟩
      obtain ⟨f, b⟩ := p
      cases b with
      | uid s =>
        have := takeSigs_len ps
        rw [List.cons_append, takeUids, takeUids, takeSigs_append hT]
        simp only [ih f' (takeSigs ps).2 (by simp only [List.length_cons] at hps; omega) (by omega)]
      | _ => rfl

theorem takeAttrs_append (magic : Bytes → Str) {T : List KPacket} (hT : HeadNot IsSigK T) (hT' : HeadNot IsAttr T) : ∀ (fuel fuel' : Nat) (ps : List KPacket),
    ps.length ≤ fuel → fuel ≤ fuel' → takeAttrs magic fuel' (ps ++ T) = (takeAttrs magic fuel ps).map (fun r => (r.1, r.2 ++ T)) := by
  have base : ∀ fuel', takeAttrs magic fuel' ([] ++ T) = .ok ([], T) := by
    intro fuel'
    obtain ⟨ks, h1, h2⟩ := takeAttrs_run magic hT hT' [] (fun _ h => absurd h List.not_mem_nil) (fun _ h => absurd h List.not_mem_nil)
      (fun _ h => absurd h List.not_mem_nil) fuel' (by simp)
    cases ks with
    | nil => exact h1
    | cons k ks =>
      rw [List.mapM_cons] at h2
      obtain ⟨x, _, h2⟩ := except_bind_eq_ok.mp h2
      obtain ⟨y, _, h2⟩ := except_bind_eq_ok.mp h2
      cases h2
  intro fuel
  induction fuel with
  | zero =>
    intro fuel' ps hps _
    have : ps = [] := List.length_eq_zero_iff.mp (by omega)
    subst this
    exact base fuel'
  | succ fuel ih =>
    intro fuel' ps hps hf
    cases ps with
    | nil => exact base fuel'
    | cons p ps =>
      obtain ⟨f', rfl⟩ : ∃ f', fuel' = f' + 1 := ⟨fuel' - 1, by omega⟩
      obtain ⟨f, b⟩ := p
      cases b with
      | attr as =>
        have := takeSigs_len ps
        rw [List.cons_append, takeAttrs, takeAttrs, takeSigs_append hT]
        cases hi : as.mapM (attrItem magic) with
        | error e => rfl
        | ok items =>
          simp only [except_bind_ok, ih f' (takeSigs ps).2 (by simp only [List.length_cons] at hps; omega) (by omega)]
          cases takeAttrs magic fuel (takeSigs ps).2 <;> rfl
      | _ => rfl

theorem takeSubs_append {T : List KPacket} (hT : HeadNot IsSigK T) (hT' : HeadNot IsSub T) : ∀ (fuel fuel' : Nat) (ps : List KPacket), ps.length ≤ fuel →
    fuel ≤ fuel' → takeSubs fuel' (ps ++ T) = ((takeSubs fuel ps).1, (takeSubs fuel ps).2 ++ T) := by
  intro fuel
  induction fuel with
  | zero =>
    intro fuel' ps hps _
    have : ps = [] := List.length_eq_zero_iff.mp (by omega)
    subst this
    exact takeSubs_run hT hT' [] (fun _ h => absurd h List.not_mem_nil) fuel' (by simp)
  | succ fuel ih =>
    intro fuel' ps hps hf
    cases ps with
    | nil => exact takeSubs_run hT hT' [] (fun _ h => absurd h List.not_mem_nil) fuel' (by simp)
    | cons p ps =>
      obtain ⟨f', rfl⟩ : ∃ f', fuel' = f' + 1 := ⟨fuel' - 1, by omega⟩
      obtain ⟨f, b⟩ := p
      cases b with
      | key a b k d =>
        cases b with
        | false => rfl
        | true =>
          have := takeSigs_len ps
          rw [List.cons_append, takeSubs, takeSubs, takeSigs_append hT]
          simp only [ih f' (takeSigs ps).2 (by simp only [List.length_cons] at hps; omega) (by omega)]
      | _ => rfl

theorem kAccepts_prefix {secret : Bool} {version : Nat} {t : Trust} {rest : List KBody} : ∀ (pre : List KBody) (st : KState),
    kAccepts secret version st (pre ++ .trust t :: rest) → kAccepts secret version st pre := by
  intro pre
  induction pre with
  | nil => intro st _; exact trivial
  | cons p pre ih =>
    intro st h
    have hn : nextBinding (pre ++ .trust t :: rest) = nextBinding pre := by
      cases pre with
      | nil => rfl
      | cons q pre => rfl
    have hk : kStep secret version st p (pre ++ .trust t :: rest) = kStep secret version st p pre := by
      cases p <;> simp only [kStep, hn]
    rw [List.cons_append] at h
    unfold kAccepts at h ⊢
    rw [hk] at h
    cases hst : kStep secret version st p pre with
    | none => rw [hst] at h; exact h
    | some st' => rw [hst] at h; exact ih st' h

theorem accepted_prefix {secret : Bool} {t : Trust} {pre rest : List KBody} (h : validateKey secret (pre ++ .trust t :: rest) = .ok ()) :
    validateKey secret pre = .ok () := by
  have hg := (validateKey_iff _ _).mp h
  obtain ⟨k, priv, d, u, a, s, he, h1, h2, h3, h4⟩ := hg
  cases pre with
  | nil => cases he
  | cons p pre =>
    rw [List.cons_append, List.cons.injEq] at he
    obtain ⟨rfl, he⟩ := he
    have hacc := accepts_of_grammar h1 h2 h3 h4
    rw [← he] at hacc
    obtain ⟨d, u, a, s, rfl, h1, h2, h3, h4⟩ := grammar_of_accepts _ _ (kAccepts_prefix _ _ hacc)
    exact (validateKey_iff _ _).mpr ⟨k, priv, d, u, a, s, rfl, h1, h2, h3, h4⟩

/-- C36: everything from a trust packet on is dropped: the object is the one made from the packets before it. -/
theorem C36_trust_packet_truncates_refuted (magic : Bytes → Str) (secret : Bool) (pre rest : List KPacket) (f : HeaderFormat) (t : Trust)
    (hv : validateKey secret ((pre ++ ⟨f, .trust t⟩ :: rest).map KPacket.body) = .ok ()) :
    TKey.fromPackets magic secret (pre ++ ⟨f, .trust t⟩ :: rest) = TKey.fromPackets magic secret pre := by
  have hp : validateKey secret (pre.map KPacket.body) = .ok () := by
    rw [List.map_append, List.map_cons] at hv
    exact accepted_prefix hv
  have hh : ∀ (P : KBody → Prop), ¬ P (.trust t) → HeadNot P (⟨f, .trust t⟩ :: rest) := by
    intro P hP p r h
    cases h
    exact hP
  have hT1 := hh IsSigK (fun h => h)
  have hT2 := hh IsUid (fun h => h)
  have hT3 := hh IsAttr (fun h => h)
  have hT4 := hh IsSub (fun h => h)
  unfold TKey.fromPackets
  rw [hv, hp]
  simp only [except_bind_ok]
  cases pre with
  | nil =>
    cases secret <;> simp [validateKey] at hp
  | cons p pre =>
    obtain ⟨fp, b⟩ := p
    cases b with
    | key sec sub k priv =>
      simp only [List.cons_append]
      rw [takeSigs_append hT1]
      simp only [List.length_append]
      rw [takeUids_append hT1 hT2 (takeSigs pre).2.length _ _ (by omega) (by omega)]
      simp only [List.length_append]
      rw [takeAttrs_append magic hT1 hT3 (takeUids (takeSigs pre).2.length (takeSigs pre).2).2.length _ _ (by omega) (by omega)]
      cases ha : takeAttrs magic (takeUids (takeSigs pre).2.length (takeSigs pre).2).2.length (takeUids (takeSigs pre).2.length (takeSigs pre).2).2 with
      | error e => rfl
      | ok r =>
        simp only [Except.map, except_bind_ok, List.length_append]
        rw [takeSubs_append hT1 hT4 r.2.length _ _ (by omega) (by omega)]
    | _ => rfl

example (magic : Bytes → Str) := C36_trust_packet_truncates_refuted magic false (exPackets.take 4) (exPackets.drop 4) .new ⟨0, none⟩ exTrust_ok

/-! ### Old packets -/

/-- C36: a key of version 2 or 3 comes back without its validity period, and the packet made of it cannot be written. -/
theorem C36_v3_validity_lost_refuted (magic : Bytes → Str) (secret : Bool) (f : HeaderFormat) (k : PubKey) (priv : Option SecPart) (d : Nat)
    (hd : k.expirationDays = some d) (fl : FloorLog2) (hv : k.version = 2 ∨ k.version = 3) :
    ∃ key k', TKey.fromPackets magic secret [⟨f, .key secret false k priv⟩] = .ok key ∧ key.toPackets = .ok [⟨f, .key secret false k' priv⟩] ∧
      k' ≠ k ∧ ∃ e, k'.publicContent fl = .error e := by
  have hval : validateKey secret [KBody.key secret false k priv] = .ok () := by cases secret <;> rfl
  refine ⟨⟨(⟨f, .key secret false (keyRound k) priv⟩, []), [], [], []⟩, keyRound k, ?_, rfl, ?_, ?_⟩
  · unfold TKey.fromPackets
    simp only [List.map_cons, List.map_nil, hval, except_bind_ok]
    rfl
  · intro h
    have : (keyRound k).expirationDays = k.expirationDays := by rw [h]
    rw [hd] at this
    cases this
  · refine ⟨.typeError, ?_⟩
    unfold PubKey.publicContent
    have h1 : byteOf (keyRound k).version = .ok (UInt8.ofNat k.version) := by
      unfold byteOf
      exact if_pos (by show k.version < 256; omega)
    have h2 : daysBytes (keyRound k).version (keyRound k).expirationDays = .error .typeError := by
      unfold daysBytes
      rw [if_pos (show (keyRound k).version = 2 ∨ (keyRound k).version = 3 from hv)]
      rfl
    rw [h1, h2]
    rfl

example (magic : Bytes → Str) := C36_v3_validity_lost_refuted magic false .old { exKey with version := 3, expirationDays := some 365 } none 365 rfl
  Nat.log2 (.inr rfl)

/-- C36: a key with a signature of version 2 or 3 cannot be turned back into packets: TypeError. -/
theorem C36_v3_signature_refuted (k : TKey) (f : HeaderFormat) (v t a h c : Nat) (id : List Char) (h2 : Bytes) (vs : List (Option Nat))
    (hk : ⟨f, .sig (.v3 v t a h c id h2 vs)⟩ ∈ k.primary.2) : ∃ e, k.toPackets = .error e := by
  have aux : ∀ l : List KElem, (⟨f, .sig (.v3 v t a h c id h2 vs)⟩ : KElem) ∈ l → ∃ e, l.mapM KElem.toPacket = (.error e : Py _) := by
    intro l hl
    induction l with
    | nil => cases hl
    | cons e l ih =>
      rw [List.mapM_cons]
      cases he : e.toPacket with
      | error x => exact ⟨x, rfl⟩
      | ok p =>
        rcases List.mem_cons.mp hl with rfl | hl
        · cases he
        · obtain ⟨x, hx⟩ := ih hl
          exact ⟨x, by rw [hx]; rfl⟩
  obtain ⟨e, he⟩ := aux _ hk
  unfold TKey.toPackets groupPackets
  cases hp : k.primary.1.toPacket with
  | error x => exact ⟨x, rfl⟩
  | ok p => exact ⟨e, by simp only [he]; rfl⟩

example := C36_v3_signature_refuted ⟨(⟨.old, .key false false exKey none⟩, [⟨.old, .sig (.v3 3 0x10 1 2 5 "0123456789ABCDEF".toList [1, 2] [some 7])⟩]), [], [], []⟩
  .old 3 0x10 1 2 5 "0123456789ABCDEF".toList [1, 2] [some 7] (by simp)

end Pgp.Props
