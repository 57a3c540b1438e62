import Verif.Lemmas.Parse
/-
Property theorems C49, C72, C73 and C77: signatures read by the pgpdump based parser.
`embed` is the construction of a pgpdump packet from an embedded signature.
-/
namespace Pgp.Props
open Pgp Pgp.Spec

/-! ### Subpackets that are not understood (C49) -/

/-- A certification with a hashed creation time, expiration and policy, an unhashed issuer, and an unknown unhashed subpacket. -/
def exParsed (extra : List PSub) : PSigPacket :=
  ⟨4, 8, 1, 0x10, [1, 2], [], 0, [⟨2, false, true, [0x50, 0, 0, 0]⟩, ⟨3, true, true, [0, 0, 1, 0]⟩, ⟨26, false, true, [104, 105]⟩] ++ extra ++
    [⟨16, false, false, [1, 2, 3, 4, 5, 6, 7, 8]⟩, ⟨3, false, false, [0, 0, 0, 9]⟩]⟩

def exParents : List (Option Str) := [some "0102030405060708".toList, none]

/-- The reader of embedded signatures in the examples: refuses. -/
def exEmbed : Bytes → Py PSigPacket := fun _ => .error .valueError

theorem accepted_of_map {α : Type} {x : Py α} (h : x.map (fun _ => ()) = .ok ()) : ∃ s, x = .ok s := by
  cases x with
  | error e => cases h
  | ok s => exact ⟨s, rfl⟩

theorem exParsed_accepted : ∃ s, parseSigPacket exEmbed (exParsed []) 13 (some exParents) false = .ok s :=
  accepted_of_map (by decide +kernel)

/-- C49. A signature with a critical subpacket of an undefined type, anywhere in the list, is never accepted. -/
theorem C49_unknown_critical_raises (embed : Bytes → Py PSigPacket) (p : PSigPacket) (hv : 4 ≤ p.version) (owner : Nat) (parents : Option (List (Option Str)))
    (sh : Bool) (sub : PSub) (hm : sub ∈ p.subpackets) (hc : sub.critical = true) (hu : sub.subtype ∉ definedSubtypes) :
    Raises (parseSigPacket embed p owner parents sh) := by
  rw [parse_ok_v4 hv]
  obtain ⟨pre, post, hp⟩ := List.append_of_mem hm
  cases sigHeader p parents with
  | error e => exact ⟨e, rfl⟩
  | ok s =>
    simp only [except_bind_ok]
    rw [hp, subLoop_append]
    cases subLoop embed ⟨s.selfsig, p.sigType, owner⟩ sh pre s [] with
    | error e => exact ⟨e, rfl⟩
    | ok r =>
      simp only [except_bind_ok, subLoop, if_neg (unknown_keys hu).2.1, parseSub_unknown hu, subUnknown, hc, if_true]
      exact ⟨_, rfl⟩

example := C49_unknown_critical_raises exEmbed (exParsed [⟨77, true, false, []⟩]) (by decide) 13 (some exParents) false ⟨77, true, false, []⟩
  (by decide) rfl (by decide)

/-- C49. And the exception is the documented one, when the subpackets before it and the issuers after it are in order. -/
theorem C49_unknown_critical_error (embed : Bytes → Py PSigPacket) (p : PSigPacket) (hv : 4 ≤ p.version) (owner : Nat) (parents : Option (List (Option Str)))
    (sh : Bool) (pre post : List PSub) (sub : PSub) (hp : p.subpackets = pre ++ sub :: post) (hc : sub.critical = true) (hu : sub.subtype ∉ definedSubtypes)
    (s : PSig) (h : parseSigPacket embed { p with subpackets := pre ++ post.filter fun x => x.subtype = 16 } owner parents sh = .ok s) :
    parseSigPacket embed p owner parents sh = .error (.pgp "CannotParseCritical") := by
  rw [parse_ok_v4 (p := { p with subpackets := pre ++ post.filter fun x => x.subtype = 16 }) hv, sigHeader_congr (p := p) rfl (by
    rw [hp]; simp only [List.filter_append, List.filter_filter, Bool.and_self]
    rw [List.filter_cons_of_neg (by simpa using (unknown_keys hu).2.1)])] at h
  obtain ⟨s0, hs0, h⟩ := except_bind_eq_ok.mp h
  obtain ⟨r, hr, h⟩ := except_bind_eq_ok.mp h
  rw [subLoop_append] at hr
  obtain ⟨r1, hr1, hr⟩ := except_bind_eq_ok.mp hr
  have hr1 : subLoop embed ⟨s0.selfsig, p.sigType, owner⟩ sh pre s0 [] = .ok r1 := hr1
  rw [parse_ok_v4 hv, hs0]
  simp only [except_bind_ok]
  rw [hp, subLoop_append, hr1]
  simp only [except_bind_ok, subLoop, if_neg (unknown_keys hu).2.1, parseSub_unknown hu, subUnknown, hc, if_true]
  rfl

example : parseSigPacket exEmbed (exParsed [⟨77, true, false, []⟩]) 13 (some exParents) false = .error (.pgp "CannotParseCritical") := by
  obtain ⟨s, hs⟩ : ∃ s, parseSigPacket exEmbed { exParsed [] with subpackets := [⟨2, false, true, [0x50, 0, 0, 0]⟩, ⟨3, true, true, [0, 0, 1, 0]⟩,
      ⟨26, false, true, [104, 105]⟩] ++ [⟨16, false, false, [1, 2, 3, 4, 5, 6, 7, 8]⟩] } 13 (some exParents) false = .ok s := accepted_of_map (by decide +kernel)
  exact C49_unknown_critical_error exEmbed (exParsed [⟨77, true, false, []⟩]) (by decide) 13 (some exParents) false
    [⟨2, false, true, [0x50, 0, 0, 0]⟩, ⟨3, true, true, [0, 0, 1, 0]⟩, ⟨26, false, true, [104, 105]⟩]
    [⟨16, false, false, [1, 2, 3, 4, 5, 6, 7, 8]⟩, ⟨3, false, false, [0, 0, 0, 9]⟩] ⟨77, true, false, []⟩ rfl rfl (by decide) s hs

/-- C49 (part). A subpacket of an undefined type that is neither critical nor hashed changes nothing: inserted anywhere in a list that is accepted, it gives the
same signature. -/
theorem C49_unknown_ignored_partial (embed : Bytes → Py PSigPacket) (p : PSigPacket) (owner : Nat) (parents : Option (List (Option Str)))
    (pre post : List PSub) (sub : PSub) (hp : p.subpackets = pre ++ sub :: post) (hc : sub.critical = false) (hh : sub.hashed = false)
    (hu : sub.subtype ∉ definedSubtypes) (s : PSig) (h : parseSigPacket embed { p with subpackets := pre ++ post } owner parents false = .ok s) :
    parseSigPacket embed p owner parents false = .ok s := by
  obtain ⟨hk, h16, hn⟩ := unknown_keys hu
  have hhead : sigHeader { p with subpackets := pre ++ post } parents = sigHeader p parents := sigHeader_congr (p := p) rfl (by
    rw [hp]; simp only [List.filter_append]
    rw [List.filter_cons_of_neg (by simpa using h16)]) parents
  by_cases hv : 4 ≤ p.version
  · rw [parse_ok_v4 (p := { p with subpackets := pre ++ post }) hv, hhead] at h
    obtain ⟨s0, hs0, h⟩ := except_bind_eq_ok.mp h
    obtain ⟨⟨s2, d2⟩, hr, h⟩ := except_bind_eq_ok.mp h
    obtain ⟨names, hnames, h⟩ := except_bind_eq_ok.mp h
    rw [subLoop_append] at hr
    obtain ⟨⟨s1, d1⟩, hr1, hr⟩ := except_bind_eq_ok.mp hr
    have hr1 : subLoop embed ⟨s0.selfsig, p.sigType, owner⟩ false pre s0 [] = .ok (s1, d1) := hr1
    have hr : subLoop embed ⟨s0.selfsig, p.sigType, owner⟩ false post s1 d1 = .ok (s2, d2) := hr
    have hnd : (dictKeys d1).Nodup := subLoop_nodup hr1 List.nodup_nil
    obtain ⟨e', he', hf⟩ := subLoop_dict hr (dictSet d1 sub.subtype false) (j := sub.subtype) (by rw [dictSet_filter, if_pos rfl])
    have hd2 : ∀ v, (sub.subtype, v) ∈ d2 → sub.subtype = 0 ∨ v = false := by
      intro v hv
      by_cases h0 : sub.subtype = 0
      · exact .inl h0
      · cases v with
        | false => exact .inr rfl
        | true => rw [hashedNames_bad hk h0 hv] at hnames; cases hnames
    have he2 : ∀ v, (sub.subtype, v) ∈ e' → sub.subtype = 0 ∨ v = false := by
      intro v hv
      rcases subLoop_flag he' (dictKeys_nodup hnd _ _) hv with ⟨h1, _⟩ | ⟨a, x, b, h1, h2, h3, h4, h5⟩
      · exact .inr (mem_dictSet_self hnd h1)
      · refine hd2 v ?_
        rw [h1, subLoop_append] at hr
        obtain ⟨⟨s3, d3⟩, _, hr⟩ := except_bind_eq_ok.mp hr
        simp only [subLoop] at hr
        rw [if_neg (by rw [h2]; exact h16)] at hr
        obtain ⟨s4, _, hr⟩ := except_bind_eq_ok.mp hr
        rw [if_neg (by rw [h2]; exact hn)] at hr
        refine subLoop_keeps hr (by rw [← h3, ← h2]; exact dictSet_has _ _ _) fun y hy e => absurd e (h4 y hy)
    rw [parse_ok_v4 hv, hs0]
    simp only [except_bind_ok]
    rw [hp, subLoop_append, hr1]
    simp only [except_bind_ok, subLoop, if_neg h16, parseSub_unknown hu, subUnknown, hc, if_neg hn, hh, Bool.or_false, he', Bool.false_eq_true, if_false]
    rw [hashedNames_filter he2, hf, ← hashedNames_filter hd2, hnames]
    exact h
  · unfold parseSigPacket at h ⊢
    rw [hhead] at h
    obtain ⟨s0, hs0, h⟩ := except_bind_eq_ok.mp h
    rw [hs0]
    simp only [except_bind_ok] at h ⊢
    split at h
    · rename_i h23; rw [if_pos h23]; exact h
    · rename_i h23
      simp only [sigHeader, if_neg h23, if_neg hv] at hs0
      cases hs0

example : ∃ s, parseSigPacket exEmbed (exParsed [⟨77, false, false, []⟩]) 13 (some exParents) false = .ok s := by
  obtain ⟨s, hs⟩ := exParsed_accepted
  exact ⟨s, C49_unknown_ignored_partial exEmbed (exParsed [⟨77, false, false, []⟩]) 13 (some exParents)
    [⟨2, false, true, [0x50, 0, 0, 0]⟩, ⟨3, true, true, [0, 0, 1, 0]⟩, ⟨26, false, true, [104, 105]⟩]
    [⟨16, false, false, [1, 2, 3, 4, 5, 6, 7, 8]⟩, ⟨3, false, false, [0, 0, 0, 9]⟩] ⟨77, false, false, []⟩ rfl rfl rfl (by decide) s hs⟩

/-- C49 fails: a subpacket of an undefined type in the hashed area, though not critical, makes the signature unreadable (unless one of the same type follows
in the unhashed area). -/
theorem C49_unknown_hashed_raises (embed : Bytes → Py PSigPacket) (p : PSigPacket) (hv : 4 ≤ p.version) (owner : Nat) (parents : Option (List (Option Str)))
    (sh : Bool) (pre post : List PSub) (sub : PSub) (hp : p.subpackets = pre ++ sub :: post) (hh : sub.hashed = true) (h0 : sub.subtype ≠ 0)
    (hu : sub.subtype ∉ definedSubtypes) (hpost : ∀ x ∈ post, x.subtype = sub.subtype → x.hashed = true) :
    Raises (parseSigPacket embed p owner parents sh) := by
  obtain ⟨hk, h16, hn⟩ := unknown_keys hu
  rw [parse_ok_v4 hv]
  cases sigHeader p parents with
  | error e => exact ⟨e, rfl⟩
  | ok s =>
    simp only [except_bind_ok]
    cases hr : subLoop embed ⟨s.selfsig, p.sigType, owner⟩ sh p.subpackets s [] with
    | error e => exact ⟨e, rfl⟩
    | ok r =>
      obtain ⟨s', d'⟩ := r
      simp only [except_bind_ok]
      rw [hp, subLoop_append] at hr
      obtain ⟨⟨s1, d1⟩, _, hr⟩ := except_bind_eq_ok.mp hr
      simp only [subLoop, if_neg h16, if_neg hn] at hr
      obtain ⟨s2, _, hr⟩ := except_bind_eq_ok.mp hr
      have hmem : (sub.subtype, true) ∈ d' := by
        refine subLoop_keeps hr ?_ fun x hx e => by rw [hpost x hx e, Bool.or_true]
        rw [hh, Bool.or_true]; exact dictSet_has _ _ _
      rw [hashedNames_bad hk h0 hmem]
      exact ⟨_, rfl⟩

example := C49_unknown_hashed_raises exEmbed (exParsed [⟨77, false, true, []⟩]) (by decide) 13 (some exParents) false
  [⟨2, false, true, [0x50, 0, 0, 0]⟩, ⟨3, true, true, [0, 0, 1, 0]⟩, ⟨26, false, true, [104, 105]⟩]
  [⟨16, false, false, [1, 2, 3, 4, 5, 6, 7, 8]⟩, ⟨3, false, false, [0, 0, 0, 9]⟩] ⟨77, false, true, []⟩ rfl rfl (by decide) (by decide) (by decide)

/-- C49. A critical notation with only defined flags, anywhere, makes the signature unreadable. -/
theorem C49_critical_notation (embed : Bytes → Py PSigPacket) (p : PSigPacket) (hv : 4 ≤ p.version) (owner : Nat) (parents : Option (List (Option Str)))
    (sh : Bool) (sub : PSub) (hm : sub ∈ p.subpackets) (hc : sub.critical = true) (ht : sub.subtype = 20) (flags : UInt8) (rest : Bytes)
    (hd : sub.data = flags :: 0 :: 0 :: 0 :: rest) : Raises (parseSigPacket embed p owner parents sh) := by
  have key : ∀ s, Raises (subNotation sub s) := by
    intro s
    unfold subNotation parseNotation
    have hl : longToInt sub.data 0 = .ok (beNat [flags, 0, 0, 0]) := by
      unfold longToInt
      rw [bytesToInt_of_drop (data := sub.data) (off := 0) (n := 4) (b := [flags, 0, 0, 0]) (s := rest) (by rw [hd]; rfl) rfl]
    have hz : ¬ beNat [flags, 0, 0, 0] % 0x1000000 ≠ 0 := by
      simp only [beNat, List.foldl_cons, List.foldl_nil, UInt8.toNat_zero]
      omega
    rw [hl]
    simp only [except_bind_ok]
    cases shortToInt sub.data 4 with
    | error e => exact ⟨e, rfl⟩
    | ok a =>
      cases shortToInt sub.data 6 with
      | error e => exact ⟨e, rfl⟩
      | ok b =>
        simp only [except_bind_ok, except_pure, if_neg hz, hc, if_true]
        exact ⟨_, rfl⟩
  rw [parse_ok_v4 hv]
  obtain ⟨pre, post, hp⟩ := List.append_of_mem hm
  cases sigHeader p parents with
  | error e => exact ⟨e, rfl⟩
  | ok s =>
    simp only [except_bind_ok]
    rw [hp, subLoop_append]
    cases subLoop embed ⟨s.selfsig, p.sigType, owner⟩ sh pre s [] with
    | error e => exact ⟨e, rfl⟩
    | ok r =>
      obtain ⟨e, he⟩ := key r.1
      simp only [except_bind_ok, subLoop, ht, show (20 : Nat) ≠ 16 by decide, if_false, parseSub, he]
      exact ⟨_, rfl⟩

example := C49_critical_notation exEmbed (exParsed [⟨20, true, true, [0x80, 0, 0, 0, 0, 1, 0, 1, 97, 98]⟩]) (by decide) 13 (some exParents) false
  ⟨20, true, true, [0x80, 0, 0, 0, 0, 1, 0, 1, 97, 98]⟩ (by decide) rfl rfl 0x80 [0, 1, 0, 1, 97, 98] rfl

/-- Inserting a subpacket of a listed type (6 or 20) that is passed over changes nothing. -/
theorem passed_over (embed : Bytes → Py PSigPacket) (p : PSigPacket) (owner : Nat) (parents : Option (List (Option Str))) (sh : Bool)
    (pre post : List PSub) (sub : PSub) (hp : p.subpackets = pre ++ sub :: post) (h16 : sub.subtype ≠ 16) (hn : sub.subtype ∈ [6, 16, 20, 32])
    (h : ∀ env s, parseSub embed env sub s = .ok s) :
    parseSigPacket embed p owner parents sh = parseSigPacket embed { p with subpackets := pre ++ post } owner parents sh := by
  have hhead : sigHeader { p with subpackets := pre ++ post } parents = sigHeader p parents := sigHeader_congr (p := p) rfl (by
    rw [hp]; simp only [List.filter_append]
    rw [List.filter_cons_of_neg (by simpa using h16)]) parents
  unfold parseSigPacket
  rw [hhead]
  have hs : ∀ env s d, subLoop embed env sh p.subpackets s d = subLoop embed env sh (pre ++ post) s d := by
    intro env s d
    rw [hp, subLoop_append, subLoop_append]
    cases subLoop embed env sh pre s d with
    | error e => rfl
    | ok r => simp only [except_bind_ok, subLoop, if_neg h16, h, if_pos hn]
  simp only [hs]

/-- C49 fails: a critical notation with an undefined flag is passed over as if it were not there, and so is a critical regular expression that is not valid. -/
theorem C49_critical_passed_over (embed : Bytes → Py PSigPacket) (p : PSigPacket) (owner : Nat) (parents : Option (List (Option Str))) (sh : Bool)
    (pre post : List PSub) (sub : PSub) (hp : p.subpackets = pre ++ sub :: post)
    (h : (sub.subtype = 20 ∧ 8 ≤ sub.data.length ∧ ∃ a b c d rest, sub.data = a :: b :: c :: d :: rest ∧ (b ≠ 0 ∨ c ≠ 0 ∨ d ≠ 0)) ∨
      (sub.subtype = 6 ∧ ∃ pos, validateRegex (asciiDecodeReplace sub.data.dropLast) = .ok (some pos))) :
    parseSigPacket embed p owner parents sh = parseSigPacket embed { p with subpackets := pre ++ post } owner parents sh := by
  rcases h with ⟨ht, hl, a, b, c, d, rest, hd, hne⟩ | ⟨ht, pos, hr⟩
  · refine passed_over embed p owner parents sh pre post sub hp (by rw [ht]; decide) (by rw [ht]; decide) fun env s => ?_
    simp only [parseSub, ht, subNotation, parseNotation]
    have hlong : longToInt sub.data 0 = .ok (beNat [a, b, c, d]) := by
      unfold longToInt
      rw [bytesToInt_of_drop (data := sub.data) (off := 0) (n := 4) (b := [a, b, c, d]) (s := rest) (by rw [hd]; rfl) rfl]
    have hs : ∀ o, o + 2 ≤ sub.data.length → ∃ n, shortToInt sub.data o = .ok n := by
      intro o ho
      unfold shortToInt
      rw [bytesToInt_eq]
      split
      · exact ⟨_, rfl⟩
      · omega
    obtain ⟨n, hn⟩ := hs 4 (by omega)
    obtain ⟨m, hm⟩ := hs 6 (by omega)
    have hnz : beNat [a, b, c, d] % 0x1000000 ≠ 0 := by
      have hb := b.toNat_lt; have hc := c.toNat_lt; have hd' := d.toNat_lt
      have : b.toNat ≠ 0 ∨ c.toNat ≠ 0 ∨ d.toNat ≠ 0 := by
        rcases hne with h | h | h
        · exact .inl fun e => h (UInt8.toNat_inj.mp e)
        · exact .inr (.inl fun e => h (UInt8.toNat_inj.mp e))
        · exact .inr (.inr fun e => h (UInt8.toNat_inj.mp e))
      simp only [beNat, List.foldl_cons, List.foldl_nil]
      omega
    simp only [hlong, hn, hm, except_bind_ok, except_pure, if_pos hnz]
  · refine passed_over embed p owner parents sh pre post sub hp (by rw [ht]; decide) (by rw [ht]; decide) fun env s => ?_
    simp only [parseSub, ht, subRegex, hr, except_bind_ok, except_pure]

example := C49_critical_passed_over exEmbed (exParsed [⟨20, true, true, [0x80, 0, 0, 1, 0, 1, 0, 1, 97, 98]⟩]) 13 (some exParents) false
  [⟨2, false, true, [0x50, 0, 0, 0]⟩, ⟨3, true, true, [0, 0, 1, 0]⟩, ⟨26, false, true, [104, 105]⟩]
  [⟨16, false, false, [1, 2, 3, 4, 5, 6, 7, 8]⟩, ⟨3, false, false, [0, 0, 0, 9]⟩] ⟨20, true, true, [0x80, 0, 0, 1, 0, 1, 0, 1, 97, 98]⟩ rfl
  (.inl ⟨rfl, by decide, 0x80, 0, 0, 1, _, rfl, .inr (.inr (by decide))⟩)

/-- C49 fails the other way: a signature with an embedded signature is never accepted, critical or not. -/
theorem C49_embedded_raises (embed : Bytes → Py PSigPacket) (p : PSigPacket) (hv : 4 ≤ p.version) (owner : Nat) (parents : Option (List (Option Str)))
    (sh : Bool) (sub : PSub) (hm : sub ∈ p.subpackets) (ht : sub.subtype = 32) : Raises (parseSigPacket embed p owner parents sh) := by
  rw [parse_ok_v4 hv]
  obtain ⟨pre, post, hp⟩ := List.append_of_mem hm
  cases sigHeader p parents with
  | error e => exact ⟨e, rfl⟩
  | ok s =>
    simp only [except_bind_ok]
    rw [hp, subLoop_append]
    cases subLoop embed ⟨s.selfsig, p.sigType, owner⟩ sh pre s [] with
    | error e => exact ⟨e, rfl⟩
    | ok r =>
      obtain ⟨e, he⟩ := subEmbedded_raises embed sub
      simp only [except_bind_ok, subLoop, ht, show (32 : Nat) ≠ 16 by decide, if_false, parseSub, he]
      exact ⟨_, rfl⟩

example := C49_embedded_raises exEmbed (exParsed [⟨32, false, true, [0]⟩]) (by decide) 13 (some exParents) false ⟨32, false, true, [0]⟩ (by decide) rfl

/-! ### Self-signatures (C73) -/

theorem issuerLoop_ids {l : List PSub} {s s' : PSig} (h : issuerLoop l s = .ok s') :
    s'.keyIds = s.keyIds ++ (l.filter fun x => x.subtype = 16).map (fun x => (hexText (x.data.take 4), x.hashed)) ∧
    (∀ x ∈ l, x.subtype = 16 → 4 ≤ x.data.length) ∧ s'.vals = s.vals ∧ s'.hashed = s.hashed := by
  induction l generalizing s with
  | nil => cases h; exact ⟨by simp, by simp, rfl, rfl⟩
  | cons x l ih =>
    simp only [issuerLoop] at h
    split at h
    · rename_i hx
      obtain ⟨s1, h1, h⟩ := except_bind_eq_ok.mp h
      obtain ⟨i1, i2, i3, i4⟩ := ih h
      unfold subIssuer at h1
      obtain ⟨t, ht, h1⟩ := except_bind_eq_ok.mp h1
      cases h1
      by_cases hlen : 4 ≤ x.data.length
      · have : bytearrayToHex x.data 0 (some 8) = .ok (hexOf (x.data.take 4)) :=
          bytearrayToHex_of_drop (s := x.data.drop 4) (by simp) (by rw [List.length_take]; omega)
        rw [this] at ht
        cases ht
        refine ⟨?_, ?_, i3, i4⟩
        · rw [i1, List.filter_cons_of_pos (by simpa using hx), List.map_cons, ← hexOf_eq_hexText]
          simp
        · intro y hy e
          rcases List.mem_cons.mp hy with rfl | hy
          · exact hlen
          · exact i2 y hy e
      · exfalso
        simp only [bytearrayToHex, show ¬(8 % 2 ≠ 0) by decide, if_false] at ht
        obtain ⟨r, hr, _⟩ := except_bind_eq_ok.mp ht
        match hd : x.data, hlen, hr with
        | [], _, hr => cases hr
        | [a], _, hr => cases hr
        | [a, b], _, hr => cases hr
        | [a, b, c], _, hr => cases hr
        | a :: b :: c :: d :: r, hlen, _ => exact hlen (by simp)
    · rename_i hx
      obtain ⟨i1, i2, i3, i4⟩ := ih h
      refine ⟨?_, ?_, i3, i4⟩
      · rw [i1, List.filter_cons_of_neg (by simpa using hx)]
      · intro y hy e
        rcases List.mem_cons.mp hy with rfl | hy
        · exact absurd e hx
        · exact i2 y hy e

theorem parse_selfsig {embed : Bytes → Py PSigPacket} {p : PSigPacket} {owner : Nat} {parents : Option (List (Option Str))} {sh : Bool} {s : PSig}
    (h : parseSigPacket embed p owner parents sh = .ok s) : ∃ s0, sigHeader p parents = .ok s0 ∧ s.selfsig = s0.selfsig := by
  unfold parseSigPacket at h
  obtain ⟨s0, hs0, h⟩ := except_bind_eq_ok.mp h
  refine ⟨s0, hs0, ?_⟩
  split at h
  · cases h; rfl
  · obtain ⟨⟨s1, d1⟩, h1, h⟩ := except_bind_eq_ok.mp h
    obtain ⟨names, _, h⟩ := except_bind_eq_ok.mp h
    cases h
    exact (subLoop_frame h1).2.1

/-- C73 (part). A version 2 or 3 signature is a self-signature exactly if its key id is one of the key ids of the key. -/
theorem C73_old_exact_partial (embed : Bytes → Py PSigPacket) (p : PSigPacket) (hv : p.version = 2 ∨ p.version = 3) (owner : Nat) (ids : List (Option Str)) (sh : Bool) :
    ∃ s, parseSigPacket embed p owner (some ids) sh = .ok s ∧ (s.selfsig = true ↔ some (p.keyId.map Char.toUpper) ∈ ids) := by
  refine ⟨_, by simp only [parseSigPacket, sigHeader, if_pos hv, except_bind_ok, except_pure]; rfl, ?_⟩
  simp only [decide_eq_true_eq]

example := C73_old_exact_partial exEmbed { exParsed [] with version := 3, keyId := "0102030405060708".toList, subpackets := [] } (.inr rfl) 13 exParents false

/-- C73 fails: of the eight octets of an issuer only the first four are compared: a version 4 signature is taken for a self-signature exactly if the key ids
contain the eight digits that begin an issuer's key id. -/
theorem C73_first_half_only (embed : Bytes → Py PSigPacket) (p : PSigPacket) (hv : 4 ≤ p.version) (owner : Nat) (ids : List (Option Str)) (sh : Bool) (s : PSig)
    (h : parseSigPacket embed p owner (some ids) sh = .ok s) :
    s.selfsig = true ↔ ∃ x ∈ p.subpackets, x.subtype = 16 ∧ some (hexText (x.data.take 4)) ∈ ids := by
  obtain ⟨s0, hs0, e⟩ := parse_selfsig h
  rw [e]
  simp only [sigHeader, if_neg (show ¬(p.version = 2 ∨ p.version = 3) by omega), if_pos hv] at hs0
  obtain ⟨s1, h1, hs0⟩ := except_bind_eq_ok.mp hs0
  cases hs0
  obtain ⟨i1, _⟩ := issuerLoop_ids h1
  simp only [i1, sigStart, List.nil_append, List.any_map, List.any_eq_true, List.mem_filter, Function.comp, decide_eq_true_eq]
  constructor
  · rintro ⟨x, ⟨h1, h2⟩, h3⟩; exact ⟨x, h1, h2, h3⟩
  · rintro ⟨x, h1, h2, h3⟩; exact ⟨x, ⟨h1, h2⟩, h3⟩

example (s : PSig) (hs : parseSigPacket exEmbed (exParsed []) 13 (some exParents) false = .ok s) :=
  C73_first_half_only exEmbed (exParsed []) (by decide) 13 exParents false s hs

theorem hexText_length (b : Bytes) : (hexText b).length = 2 * b.length := by
  induction b with
  | nil => rfl
  | cons x b ih => simp only [hexText, List.flatMap_cons, List.length_append, List.length_cons, List.length_nil] at ih ⊢; omega

/-- C73 fails: against the usual key ids of sixteen digits no version 4 signature is ever taken for a self-signature, though an issuer subpacket gives the very
key id, so its preferences, key expiration time, primary flag and features are never read. -/
theorem C73_never_selfsig (embed : Bytes → Py PSigPacket) (p : PSigPacket) (hv : 4 ≤ p.version) (owner : Nat) (ids : List (Option Str))
    (hi : ∀ i, some i ∈ ids → i.length = 16) (sh : Bool) (s : PSig) (h : parseSigPacket embed p owner (some ids) sh = .ok s) :
    s.selfsig = false ∧
    ∀ k ∈ [PField.keyExpirationSeconds, .preferredSym, .preferredHash, .preferredCompression, .keyServerNoModify, .primary, .mayHaveBeenSplit,
      .mayHaveMultipleOwners, .supportsModification], s.vals k = none := by
  have hself : s.selfsig = false := by
    cases hs : s.selfsig with
    | false => rfl
    | true =>
      obtain ⟨x, _, _, hx⟩ := (C73_first_half_only embed p hv owner ids sh s h).mp hs
      have := hi _ hx
      rw [hexText_length, List.length_take] at this
      omega
  refine ⟨hself, fun k hk => ?_⟩
  rw [parse_ok_v4 hv] at h
  obtain ⟨s0, hs0, h⟩ := except_bind_eq_ok.mp h
  obtain ⟨⟨s1, d1⟩, hr, h⟩ := except_bind_eq_ok.mp h
  obtain ⟨names, _, h⟩ := except_bind_eq_ok.mp h
  cases h
  have hs0self : s0.selfsig = false := by rw [← (subLoop_frame hr).2.1]; exact hself
  have hk0 : s0.vals k = none := by
    simp only [sigHeader, if_neg (show ¬(p.version = 2 ∨ p.version = 3) by omega), if_pos hv] at hs0
    obtain ⟨s2, h2, hs0⟩ := except_bind_eq_ok.mp hs0
    cases hs0
    have h3 := (issuerLoop_ids h2).2.2.1
    simp only [h3, sigStart]
    simp only [List.mem_cons, List.not_mem_nil, or_false] at hk
    rcases hk with rfl | rfl | rfl | rfl | rfl | rfl | rfl | rfl | rfl <;> rfl
  have step : ∀ (sub : PSub) (a b : PSig), parseSub embed ⟨false, p.sigType, owner⟩ sub a = .ok b → b.vals k = a.vals k := by
    intro sub a b hab
    by_cases ho : ownerType k = some sub.subtype
    · simp only [List.mem_cons, List.not_mem_nil, or_false] at hk
      rcases hk with rfl | rfl | rfl | rfl | rfl | rfl | rfl | rfl | rfl
      all_goals (simp only [ownerType, Option.some.injEq] at ho)
      all_goals (simp only [parseSub, ← ho, subKeyExpiration, subPreferences, subNoModify, subPrimary, subFeatures, if_true] at hab)
      all_goals first
        | (cases hab; rfl)
        | (simp only [subKeyFlags, Bool.false_eq_true, false_and, if_false] at hab
           obtain ⟨x, _, hab⟩ := except_bind_eq_ok.mp hab
           cases hab
           simp only [PSig.set]; rfl)
    · exact (frame_parseSub hab).vals k ho
  have loop : ∀ (l : List PSub) (a b : PSig) (d d' : List (Nat × Bool)), subLoop embed ⟨false, p.sigType, owner⟩ sh l a d = .ok (b, d') → b.vals k = a.vals k := by
    intro l
    induction l with
    | nil => intro a b d d' h; cases h; rfl
    | cons x l ih =>
      intro a b d d' h
      simp only [subLoop] at h
      split at h
      · exact ih _ _ _ _ h
      · obtain ⟨c, hc, h⟩ := except_bind_eq_ok.mp h
        rw [ih _ _ _ _ h, step x a c hc]
  rw [hs0self] at hr
  show s1.vals k = none
  rw [loop _ _ _ _ _ hr, hk0]

/-- `exParsed_accepted` gives such an `s`. -/
example (s : PSig) (hs : parseSigPacket exEmbed (exParsed []) 13 (some exParents) false = .ok s) :=
  C73_never_selfsig exEmbed (exParsed []) (by decide) 13 exParents (fun i hi => by
    simp only [exParents, List.mem_cons, List.not_mem_nil, or_false, Option.some.injEq, reduceCtorEq] at hi
    subst hi; decide) false s hs

/-! ### What is reported as hashed (C72) -/

theorem keys_owner {t : Nat} {keys : List PField} (h : subpacketTypeToKeys t = some keys) : ∀ k ∈ keys, k ≠ .regex → k ≠ .target → ownerType k = some t := by
  unfold subpacketTypeToKeys at h
  split at h
  case h_21 => cases h
  all_goals (cases h; decide)

/-- What the header leaves, apart from the issuers. -/
theorem header_v4 {p : PSigPacket} {parents : Option (List (Option Str))} {t : PSig} (hv : 4 ≤ p.version) (h : sigHeader p parents = .ok t) :
    ∃ ids self, t = { sigStart p with keyIds := ids, selfsig := self } := by
  simp only [sigHeader, if_neg (show ¬(p.version = 2 ∨ p.version = 3) by omega), if_pos hv] at h
  obtain ⟨u, h1, h⟩ := except_bind_eq_ok.mp h
  cases parents with
  | none => cases h
  | some l =>
    cases h
    refine ⟨u.keyIds, u.keyIds.any fun k => decide (some k.1 ∈ l), ?_⟩
    have : ∀ (l : List PSub) (a b : PSig), issuerLoop l a = .ok b → b = { a with keyIds := b.keyIds } := by
      intro l
      induction l with
      | nil => intro a b h; cases h; rfl
      | cons x l ih =>
        intro a b h
        simp only [issuerLoop] at h
        split at h
        · obtain ⟨c, hc, h⟩ := except_bind_eq_ok.mp h
          unfold subIssuer at hc
          obtain ⟨r, _, hc⟩ := except_bind_eq_ok.mp hc
          have := ih _ _ h
          cases hc
          rw [this]
        · exact ih _ _ h
    have e := this _ _ _ h1
    rw [e]

/-- C72 (part). When the hashed subpackets come first, as they do in a signature packet, every field listed as hashed is also listed, with the same value, when the
unhashed subpackets are left out, provided that the unhashed issuers do not change whether the signature is a self-signature. -/
theorem C72_hashed_fields_partial (embed : Bytes → Py PSigPacket) (p : PSigPacket) (hv : 4 ≤ p.version) (owner : Nat) (parents : Option (List (Option Str)))
    (hs us : List PSub) (hp : p.subpackets = hs ++ us) (hu : ∀ x ∈ us, x.hashed = false) (s s0 : PSig)
    (h : parseSigPacket embed p owner parents false = .ok s) (h0 : parseSigPacket embed { p with subpackets := hs } owner parents false = .ok s0)
    (hself : s.selfsig = s0.selfsig) : ∀ k ∈ s.hashed, k ∈ s0.hashed ∧ s.vals k = s0.vals k := by
  obtain ⟨t, ht, et⟩ := parse_selfsig h
  obtain ⟨t0, ht0, et0⟩ := parse_selfsig h0
  rw [parse_ok_v4 hv, ht] at h
  rw [parse_ok_v4 (p := { p with subpackets := hs }) hv, ht0] at h0
  simp only [except_bind_ok] at h h0
  obtain ⟨⟨s1, d1⟩, hr, h⟩ := except_bind_eq_ok.mp h
  obtain ⟨names, hn, h⟩ := except_bind_eq_ok.mp h
  obtain ⟨⟨s2, d2⟩, hr2, h0⟩ := except_bind_eq_ok.mp h0
  obtain ⟨names0, hn0, h0⟩ := except_bind_eq_ok.mp h0
  cases h; cases h0
  have hr2 : subLoop embed ⟨t0.selfsig, p.sigType, owner⟩ false hs t0 [] = .ok (s2, d2) := hr2
  have htt : t0.selfsig = t.selfsig := by rw [← et, ← et0]; exact hself.symm
  obtain ⟨ids, self, e1⟩ := header_v4 hv ht
  obtain ⟨ids0, self0, e2⟩ := header_v4 (p := { p with subpackets := hs }) hv ht0
  have e3 : t = { t0 with keyIds := ids } := by
    rw [e1, e2] at htt
    have : self0 = self := htt
    rw [e1, e2, this]; rfl
  rw [htt] at hr2
  rw [hp, subLoop_append] at hr
  obtain ⟨⟨s3, d3⟩, hr3, hr⟩ := except_bind_eq_ok.mp hr
  rw [show subLoop embed ⟨t.selfsig, p.sigType, owner⟩ false hs t [] = subLoop embed ⟨t.selfsig, p.sigType, owner⟩ false hs { t0 with keyIds := ids } [] by rw [← e3],
    subLoop_keyIds, hr2] at hr3
  cases hr3
  have hr' : subLoop embed ⟨t.selfsig, p.sigType, owner⟩ false us { s2 with keyIds := ids } d2 = .ok (s1, d1) := hr
  have hf := subLoop_frame hr'
  intro k hk
  rcases List.mem_append.mp hk with hk | hk
  · have hk2 : k ∈ s2.hashed := by rw [hf.1] at hk; exact hk
    refine ⟨List.mem_append_left _ hk2, ?_⟩
    have hk' : k ∈ (sigStart p).hashed := by
      rw [(subLoop_frame hr2).1, e2] at hk2; exact hk2
    refine hf.2.2 k fun x _ => ?_
    simp only [sigStart, List.mem_cons, List.not_mem_nil, or_false] at hk'
    rcases hk' with rfl | rfl | rfl | rfl <;> nofun
  · obtain ⟨ty, keys, hm, hne, hkeys, hkk⟩ := hashedNames_ok hn k hk
    have hnd : (dictKeys d2).Nodup := subLoop_nodup hr2 List.nodup_nil
    have hno : (ty, true) ∈ d2 ∧ ∀ x ∈ us, x.subtype = ty → ty ∈ [6, 16, 20, 32] := by
      rcases subLoop_flag hr' hnd hm with h1 | ⟨a, x, b, h1, h2, h3, h4, h5⟩
      · exact h1
      · have := hu x (by rw [h1]; simp)
        rw [this] at h3; cases h3
    have hty : ty ∉ [6, 16, 20, 32] := by
      rcases subLoop_flag hr2 List.nodup_nil hno.1 with ⟨h1, _⟩ | ⟨a, x, b, h1, h2, h3, h4, h5⟩
      · cases h1
      · exact h5
    refine ⟨List.mem_append_right _ (hashedNames_mem hn0 hno.1 hne hkeys k hkk), ?_⟩
    refine hf.2.2 k ?_
    intro x hx e
    by_cases hreg : k = .regex
    · rw [hreg] at e; cases e
    · by_cases htar : k = .target
      · rw [htar] at e; cases e
      · rw [keys_owner hkeys k hkk hreg htar] at e
        exact hty (hno.2 x hx (Option.some.inj e).symm)

example : ∃ s s0, parseSigPacket exEmbed (exParsed []) 13 (some exParents) false = .ok s ∧
    parseSigPacket exEmbed { exParsed [] with subpackets := (exParsed []).subpackets.take 3 } 13 (some exParents) false = .ok s0 ∧
    (exParsed []).subpackets = (exParsed []).subpackets.take 3 ++ (exParsed []).subpackets.drop 3 ∧
    ∀ x ∈ (exParsed []).subpackets.drop 3, x.hashed = false := by
  obtain ⟨s, hs⟩ := exParsed_accepted
  obtain ⟨s0, h0⟩ : ∃ s, parseSigPacket exEmbed { exParsed [] with subpackets := (exParsed []).subpackets.take 3 } 13 (some exParents) false = .ok s :=
    accepted_of_map (by decide +kernel)
  exact ⟨s, s0, hs, h0, rfl, by decide⟩

/-- C72 (part). Against key ids of sixteen digits the proviso always holds. -/
theorem C72_long_ids_partial (embed : Bytes → Py PSigPacket) (p : PSigPacket) (hv : 4 ≤ p.version) (owner : Nat) (ids : List (Option Str))
    (hi : ∀ i, some i ∈ ids → i.length = 16) (hs us : List PSub) (hp : p.subpackets = hs ++ us) (hu : ∀ x ∈ us, x.hashed = false) (s s0 : PSig)
    (h : parseSigPacket embed p owner (some ids) false = .ok s) (h0 : parseSigPacket embed { p with subpackets := hs } owner (some ids) false = .ok s0) :
    ∀ k ∈ s.hashed, k ∈ s0.hashed ∧ s.vals k = s0.vals k := by
  refine C72_hashed_fields_partial embed p hv owner (some ids) hs us hp hu s s0 h h0 ?_
  rw [(C73_never_selfsig embed p hv owner ids hi false s h).1, (C73_never_selfsig embed { p with subpackets := hs } hv owner ids hi false s0 h0).1]

example (s s0 : PSig) (hs : parseSigPacket exEmbed (exParsed []) 13 (some exParents) false = .ok s)
    (h0 : parseSigPacket exEmbed { exParsed [] with subpackets := (exParsed []).subpackets.take 3 } 13 (some exParents) false = .ok s0) :=
  C72_long_ids_partial exEmbed (exParsed []) (by decide) 13 exParents (fun i hi => by
    simp only [exParents, List.mem_cons, List.not_mem_nil, or_false, Option.some.injEq, reduceCtorEq] at hi
    subst hi; decide) _ ((exParsed []).subpackets.drop 3) rfl (by decide) s s0 hs h0

/-- C72 fails: for a signature whose unhashed subpackets come first, an expiration time that only the unhashed area gives is listed as hashed, for every such time:
a hashed expiration of zero does not replace it but marks it. -/
theorem C72_unhashed_reported (embed : Bytes → Py PSigPacket) (a b c d : UInt8) (hn : beNat [a, b, c, d] ≠ 0) (hashAlg pubAlg sigType owner : Nat) (hash2 : Bytes) :
    ∃ s, parseSigPacket embed ⟨4, hashAlg, pubAlg, sigType, hash2, [], 0, [⟨3, false, false, [a, b, c, d]⟩, ⟨3, false, true, [0, 0, 0, 0]⟩]⟩ owner (some []) false = .ok s ∧
      PField.expirationSeconds ∈ s.hashed ∧ s.vals .expirationSeconds = some (.int (beNat [a, b, c, d])) := by
  have h1 : ∀ s, subExpiration ⟨3, false, false, [a, b, c, d]⟩ s = .ok (s.set .expirationSeconds (.int (beNat [a, b, c, d]))) := by
    intro s
    unfold subExpiration longToInt
    rw [bytesToInt_of_drop (data := [a, b, c, d]) (off := 0) (n := 4) (b := [a, b, c, d]) (s := []) rfl rfl]
    simp only [except_bind_ok, if_pos hn, except_pure]
  have h2 : ∀ s, subExpiration ⟨3, false, true, [0, 0, 0, 0]⟩ s = .ok s := fun s => rfl
  refine ⟨_, by simp only [parseSigPacket, sigHeader, issuerLoop, subLoop, parseSub, h1, h2, show ¬((4 : Nat) = 2 ∨ (4 : Nat) = 3) by decide, show (4 : Nat) ≤ 4 by decide,
    show ¬((3 : Nat) = 16) by decide, if_true, if_false, except_bind_ok, except_pure, show (3 : Nat) ∉ [6, 16, 20, 32] by decide, dictSet, Bool.or_true, Bool.or_false, hashedNames,
    subpacketTypeToKeys, show ¬((3 : Nat) = 0 ∨ true = false) by decide]; rfl, ?_, ?_⟩
  · simp
  · simp [PSig.set]

example := C72_unhashed_reported exEmbed 0 0 1 44 (by decide) 8 1 0x10 13 [1, 2]

/-! ### The fields (C77) -/

theorem hexLoop_all (b : Bytes) : hexLoop b 0 b.length = .ok (hexText b) := by
  rw [hexLoop_of_drop (b := b) (s := []) (by simp), hexOf_eq_hexText]

theorem says_owner {t : Nat} {sub : PSub} {k : PField} {v : PVal} (h : Says t sub k v) : ownerType k = some sub.subtype ∧ sub.subtype ≠ 16 := by
  cases h <;> exact ⟨rfl, by simp⟩

theorem says_step {embed : Bytes → Py PSigPacket} {env : PEnv} {sub : PSub} {k : PField} {v : PVal} (h : Says env.sigType sub k v) {s s' : PSig}
    (hp : parseSub embed env sub s = .ok s') : s'.vals k = some v := by
  cases h with
  | creation hl =>
    rename_i c t
    simp only [parseSub, subCreation, Bool.true_eq_false, if_false, longToInt] at hp
    rw [bytesToInt_of_drop (b := t) (s := []) (by simp) hl.symm] at hp
    cases hp; exact PSig.set_self _ _ _
  | expiration hl hne =>
    rename_i c h t
    simp only [parseSub, subExpiration, longToInt] at hp
    rw [bytesToInt_of_drop (b := t) (s := []) (by simp) hl.symm] at hp
    simp only [except_bind_ok, if_pos hne] at hp
    cases hp; exact PSig.set_self _ _ _
  | trustLevel => cases hp; rw [PSig.set_ne (by decide)]; exact PSig.set_self _ _ _
  | trustAmount => cases hp; exact PSig.set_self _ _ _
  | exportable hx =>
    rename_i c h x
    simp only [parseSub, subExportable, idx, List.drop_zero, except_bind_ok, if_neg hx] at hp
    cases hp; exact PSig.set_self _ _ _
  | revocable => cases hp; exact PSig.set_self _ _ _
  | revoker hx =>
    rename_i c h x a fp
    simp only [parseSub, subRevocationKey, idx, List.drop_zero, List.drop_succ_cons, except_bind_ok, if_neg (show ¬ x.toNat < 0x80 by omega), bytearrayToHex, Nat.sub_zero,
      hexLoop_all] at hp
    cases hp; exact PSig.set_self _ _ _
  | revokerAlg hx =>
    rename_i c h x a fp
    simp only [parseSub, subRevocationKey, idx, List.drop_zero, List.drop_succ_cons, except_bind_ok, if_neg (show ¬ x.toNat < 0x80 by omega), bytearrayToHex, Nat.sub_zero,
      hexLoop_all] at hp
    cases hp; rw [PSig.set_ne (by decide)]; exact PSig.set_self _ _ _
  | revokerSensitive hx =>
    rename_i c h x a fp
    simp only [parseSub, subRevocationKey, idx, List.drop_zero, List.drop_succ_cons, except_bind_ok, if_neg (show ¬ x.toNat < 0x80 by omega), bytearrayToHex, Nat.sub_zero,
      hexLoop_all] at hp
    cases hp; rw [PSig.set_ne (by decide), PSig.set_ne (by decide), PSig.set_self]
    have := x.toNat_lt
    rw [show x.toNat % 0x80 / 0x40 = x.toNat / 0x40 % 2 by omega]
  | keyServer => simp only [parseSub, subText, utf8DecodeReplace_encode] at hp; cases hp; exact PSig.set_self _ _ _
  | policy => simp only [parseSub, subText, utf8DecodeReplace_encode] at hp; cases hp; exact PSig.set_self _ _ _
  | signer => simp only [parseSub, subText, utf8DecodeReplace_encode] at hp; cases hp; exact PSig.set_self _ _ _
  | certify =>
    simp only [parseSub, subKeyFlags, idx, List.drop_zero, except_bind_ok] at hp
    split at hp <;> (cases hp; simp [PSig.set, Nat.testBit_eq_decide_div_mod_eq])
  | signData =>
    simp only [parseSub, subKeyFlags, idx, List.drop_zero, except_bind_ok] at hp
    split at hp <;> (cases hp; simp [PSig.set, Nat.testBit_eq_decide_div_mod_eq])
  | encryptComms =>
    simp only [parseSub, subKeyFlags, idx, List.drop_zero, except_bind_ok] at hp
    split at hp <;> (cases hp; simp [PSig.set, Nat.testBit_eq_decide_div_mod_eq])
  | encryptStorage =>
    simp only [parseSub, subKeyFlags, idx, List.drop_zero, except_bind_ok] at hp
    split at hp <;> (cases hp; simp [PSig.set, Nat.testBit_eq_decide_div_mod_eq])
  | auth =>
    simp only [parseSub, subKeyFlags, idx, List.drop_zero, except_bind_ok] at hp
    split at hp <;> (cases hp; simp [PSig.set, Nat.testBit_eq_decide_div_mod_eq])
  | revocationCode ht hc =>
    rename_i c h x txt
    have hk : knownRevocation x.toNat = true := by
      unfold knownRevocation
      rcases hc with hc | hc
      · rw [decide_eq_true hc, Bool.true_or]
      · rw [show (decide (99 < x.toNat) && decide (x.toNat < 111)) = true by simp; omega, Bool.or_true]
    simp only [parseSub, subRevocationReason, if_neg (show ¬(env.sigType ≠ 0x20 ∧ env.sigType ≠ 0x28) by omega), idx, List.drop_zero, except_bind_ok, hk, if_true] at hp
    cases hp; rw [PSig.set_ne (by decide)]; exact PSig.set_self _ _ _
  | revocationReason ht hc =>
    rename_i c h x txt
    have hk : knownRevocation x.toNat = true := by
      unfold knownRevocation
      rcases hc with hc | hc
      · rw [decide_eq_true hc, Bool.true_or]
      · rw [show (decide (99 < x.toNat) && decide (x.toNat < 111)) = true by simp; omega, Bool.or_true]
    simp only [parseSub, subRevocationReason, if_neg (show ¬(env.sigType ≠ 0x20 ∧ env.sigType ≠ 0x28) by omega), idx, List.drop_zero, except_bind_ok, hk, if_true,
      List.drop_succ_cons, utf8DecodeReplace_encode] at hp
    cases hp; exact PSig.set_self _ _ _
  | targetAlg =>
    simp only [parseSub, subTarget, idx, List.drop_zero, List.drop_succ_cons, except_bind_ok, bytearrayToHex, Nat.sub_zero, hexLoop_all] at hp
    cases hp; rw [PSig.set_ne (by decide), PSig.set_ne (by decide)]; exact PSig.set_self _ _ _
  | targetHashAlg =>
    simp only [parseSub, subTarget, idx, List.drop_zero, List.drop_succ_cons, except_bind_ok, bytearrayToHex, Nat.sub_zero, hexLoop_all] at hp
    cases hp; rw [PSig.set_ne (by decide)]; exact PSig.set_self _ _ _
  | targetHash =>
    simp only [parseSub, subTarget, idx, List.drop_zero, List.drop_succ_cons, except_bind_ok, bytearrayToHex, Nat.sub_zero, hexLoop_all] at hp
    cases hp; exact PSig.set_self _ _ _

/-- C77 (part). In a signature that is accepted, the last subpacket of a type decides the fields of that type, with the meaning RFC 4880 gives it, for all the
subpackets that are not restricted to self-signatures. -/
theorem C77_fields_partial (embed : Bytes → Py PSigPacket) (p : PSigPacket) (hv : 4 ≤ p.version) (owner : Nat) (parents : Option (List (Option Str))) (sh : Bool) (s : PSig)
    (h : parseSigPacket embed p owner parents sh = .ok s) (pre post : List PSub) (sub : PSub) (hp : p.subpackets = pre ++ sub :: post)
    (hlast : ∀ x ∈ post, x.subtype ≠ sub.subtype) (k : PField) (v : PVal) (hs : Says p.sigType sub k v) : s.vals k = some v := by
  obtain ⟨ho, h16⟩ := says_owner hs
  rw [parse_ok_v4 hv] at h
  obtain ⟨s0, _, h⟩ := except_bind_eq_ok.mp h
  obtain ⟨⟨s1, d1⟩, hr, h⟩ := except_bind_eq_ok.mp h
  obtain ⟨names, _, h⟩ := except_bind_eq_ok.mp h
  cases h
  rw [hp, subLoop_append] at hr
  obtain ⟨⟨s2, d2⟩, _, hr⟩ := except_bind_eq_ok.mp hr
  simp only [subLoop, if_neg h16] at hr
  obtain ⟨s3, h3, hr⟩ := except_bind_eq_ok.mp hr
  show s1.vals k = some v
  rw [(subLoop_frame hr).2.2 k fun x hx e => hlast x hx (Option.some.inj (ho.symm.trans e)).symm]
  exact says_step (env := ⟨s0.selfsig, p.sigType, owner⟩) hs h3

example (s : PSig) (hs : parseSigPacket exEmbed (exParsed []) 13 (some exParents) false = .ok s) : s.vals .creationTime = some (.int (beNat [0x50, 0, 0, 0])) :=
  C77_fields_partial exEmbed (exParsed []) (by decide) 13 (some exParents) false s hs [] _ ⟨2, false, true, [0x50, 0, 0, 0]⟩ rfl (by decide)
    .creationTime _ (.creation rfl)

/-- C77. A field no subpacket is responsible for is absent. -/
theorem C77_absent (embed : Bytes → Py PSigPacket) (p : PSigPacket) (hv : 4 ≤ p.version) (owner : Nat) (parents : Option (List (Option Str))) (sh : Bool) (s : PSig)
    (h : parseSigPacket embed p owner parents sh = .ok s) (k : PField) (t : Nat) (hk : ownerType k = some t) (hn : ∀ x ∈ p.subpackets, x.subtype ≠ t) : s.vals k = none := by
  rw [parse_ok_v4 hv] at h
  obtain ⟨s0, hs0, h⟩ := except_bind_eq_ok.mp h
  obtain ⟨⟨s1, d1⟩, hr, h⟩ := except_bind_eq_ok.mp h
  obtain ⟨names, _, h⟩ := except_bind_eq_ok.mp h
  cases h
  show s1.vals k = none
  rw [(subLoop_frame hr).2.2 k fun x hx e => hn x hx (Option.some.inj (hk.symm.trans e)).symm]
  obtain ⟨ids, self, e⟩ := header_v4 hv hs0
  rw [e]
  cases k <;> first | rfl | cases hk

example (s : PSig) (hs : parseSigPacket exEmbed (exParsed []) 13 (some exParents) false = .ok s) : s.vals .preferredSym = none :=
  C77_absent exEmbed (exParsed []) (by decide) 13 (some exParents) false s hs .preferredSym _ rfl (by decide)

/-- C77. A certification marked as not exportable is never accepted. -/
theorem C77_local_raises (embed : Bytes → Py PSigPacket) (p : PSigPacket) (hv : 4 ≤ p.version) (owner : Nat) (parents : Option (List (Option Str))) (sh : Bool)
    (sub : PSub) (hm : sub ∈ p.subpackets) (ht : sub.subtype = 4) (rest : Bytes) (hd : sub.data = 0 :: rest) : Raises (parseSigPacket embed p owner parents sh) := by
  rw [parse_ok_v4 hv]
  obtain ⟨pre, post, hp⟩ := List.append_of_mem hm
  cases sigHeader p parents with
  | error e => exact ⟨e, rfl⟩
  | ok s =>
    simp only [except_bind_ok]
    rw [hp, subLoop_append]
    cases subLoop embed ⟨s.selfsig, p.sigType, owner⟩ sh pre s [] with
    | error e => exact ⟨e, rfl⟩
    | ok r =>
      simp only [except_bind_ok, subLoop, ht, show (4 : Nat) ≠ 16 by decide, if_false, parseSub, subExportable, hd, idx, List.drop_zero, if_true]
      exact ⟨_, rfl⟩

example := C77_local_raises exEmbed (exParsed [⟨4, false, true, [0]⟩]) (by decide) 13 (some exParents) false ⟨4, false, true, [0]⟩ (by decide) rfl [] rfl

/-- C77 fails: the hash of a signature target is stored under a name that the list of hashed fields never mentions; the list mentions a field that is never set. -/
theorem C77_target_never_set (embed : Bytes → Py PSigPacket) (p : PSigPacket) (hv : 4 ≤ p.version) (owner : Nat) (parents : Option (List (Option Str))) (sh : Bool) (s : PSig)
    (h : parseSigPacket embed p owner parents sh = .ok s) : s.vals .target = none ∧ PField.targetHash ∉ s.hashed := by
  rw [parse_ok_v4 hv] at h
  obtain ⟨s0, hs0, h⟩ := except_bind_eq_ok.mp h
  obtain ⟨⟨s1, d1⟩, hr, h⟩ := except_bind_eq_ok.mp h
  obtain ⟨names, hn, h⟩ := except_bind_eq_ok.mp h
  cases h
  obtain ⟨ids, self, e⟩ := header_v4 hv hs0
  refine ⟨?_, fun hm => ?_⟩
  · show s1.vals .target = none
    rw [(subLoop_frame hr).2.2 .target fun x _ => nofun, e]; rfl
  · rcases List.mem_append.mp hm with hm | hm
    · rw [(subLoop_frame hr).1, e] at hm
      simp [sigStart] at hm
    · obtain ⟨ty, keys, _, _, hk, hm⟩ := hashedNames_ok hn _ hm
      unfold subpacketTypeToKeys at hk
      split at hk
      case h_21 => cases hk
      all_goals (cases hk; revert hm; decide)

/-! ### A case -/

/-- Accepted: the unhashed expiration replaces the hashed one, and is then not listed as hashed; the signature's issuer is the key, but it is not seen to be. -/
example : (parseSigPacket (fun _ => .error .valueError) (exParsed [⟨77, false, false, []⟩]) 13 (some exParents) false).map
    (fun s => (s.hashed, s.selfsig)) =
    .ok ([.hashAlgorithmType, .pubAlgorithmType, .sigType, .sigVersion, .creationTime, .policyUri], false) ∧
    (parseSigPacket (fun _ => .error .valueError) (exParsed [⟨77, false, false, []⟩]) 13 (some exParents) false).map
    (fun s => (s.vals .expirationSeconds, s.vals .policyUri)) = .ok (some (.int 9), some (.str "hi".toList)) ∧
    (parseSigPacket (fun _ => .error .valueError) (exParsed [⟨77, false, false, []⟩]) 13 (some exParents) false).map
    (fun s => s.keyIds) = .ok [("01020304".toList, false)] := by refine ⟨?_, ?_, ?_⟩ <;> decide +kernel

/-- Refused: unknown and critical. -/
example : (parseSigPacket (fun _ => .error .valueError) (exParsed [⟨77, true, false, []⟩]) 13 (some exParents) false).map (·.selfsig) =
    .error (.pgp "CannotParseCritical") := by decide +kernel

/-- Refused: unknown, not critical, hashed. -/
example : (parseSigPacket (fun _ => .error .valueError) (exParsed [⟨77, false, true, []⟩]) 13 (some exParents) false).map (·.selfsig) =
    .error .typeError := by decide +kernel

/-- Refused: a critical notation; passed over: one with an undefined flag. -/
example : (parseSigPacket (fun _ => .error .valueError) (exParsed [⟨20, true, true, [0x80, 0, 0, 0, 0, 1, 0, 1, 97, 98]⟩]) 13 (some exParents) false).map (·.selfsig) =
    .error (.pgp "CannotParseCriticalNotation") ∧
    (parseSigPacket (fun _ => .error .valueError) (exParsed [⟨20, true, true, [0x80, 0, 0, 1, 0, 1, 0, 1, 97, 98]⟩]) 13 (some exParents) false).map (·.notations) =
    .ok [] := by constructor <;> decide +kernel

/-- Refused: not exportable, and with an embedded signature. -/
example : (parseSigPacket (fun _ => .error .valueError) (exParsed [⟨4, false, true, [0]⟩]) 13 (some exParents) false).map (·.selfsig) =
    .error (.pgp "LocalCertificationSignature") ∧
    (parseSigPacket (fun _ => .ok (exParsed [])) (exParsed [⟨32, false, true, [0]⟩]) 13 (some exParents) false).map (·.selfsig) = .error .typeError := by
  constructor <;> decide +kernel

/-- What the subpackets of the case say. -/
example : Says 0x10 ⟨26, false, true, [104, 105]⟩ .policyUri (.str "hi".toList) ∧ Says 0x10 ⟨2, false, true, [0x50, 0, 0, 0]⟩ .creationTime (.int (0x50 * 2 ^ 24)) := by
  refine ⟨?_, ?_⟩
  · have : ([104, 105] : Bytes) = utf8Encode "hi".toList := by decide +kernel
    rw [this]; exact .policy
  · have : 0x50 * 2 ^ 24 = beNat [0x50, 0, 0, 0] := by decide +kernel
    rw [this]; exact .creation rfl

end Pgp.Props
