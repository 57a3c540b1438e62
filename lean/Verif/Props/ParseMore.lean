import Verif.Props.Parse
import Mathlib.Data.List.Forall2
/-
C77 continued: fields of self-signatures, notations and regular expressions of signatures read from pgpdump packets.
-/
namespace Pgp.Props
open Pgp.Spec

theorem saysSelf_owner {t o : Nat} {sub : PSub} {k : PField} {v : PVal} (h : SaysSelf t o sub k v) : ownerType k = some sub.subtype ∧ sub.subtype ≠ 16 := by
  cases h <;> exact ⟨rfl, by simp⟩

theorem zeros_any (n : Nat) : (List.replicate n (0 : UInt8)).any (fun x => decide (x ≠ 0)) = false := by
  rw [List.any_eq_false]
  intro x hx
  rw [List.eq_of_mem_replicate hx]; decide

theorem saysSelf_step {embed : Bytes → Py PSigPacket} {env : PEnv} {sub : PSub} {k : PField} {v : PVal} (hself : env.selfsig = true) (h : SaysSelf env.sigType env.owner sub k v)
    {s s' : PSig} (hp : parseSub embed env sub s = .ok s') : s'.vals k = some v := by
  have hn : ¬env.selfsig = false := by rw [hself]; decide
  cases h with
  | keyExpiration hl hne =>
    rename_i c h t
    simp only [parseSub, subKeyExpiration, if_neg hn, longToInt] at hp
    rw [bytesToInt_of_drop (b := t) (s := []) (by simp) hl.symm] at hp
    simp only [except_bind_ok, if_neg hne] at hp
    cases hp; exact PSig.set_self _ _ _
  | ciphers => simp only [parseSub, subPreferences, if_neg hn] at hp; cases hp; exact PSig.set_self _ _ _
  | hashes => simp only [parseSub, subPreferences, if_neg hn] at hp; cases hp; exact PSig.set_self _ _ _
  | compressions => simp only [parseSub, subPreferences, if_neg hn] at hp; cases hp; exact PSig.set_self _ _ _
  | mayModify =>
    rename_i c h n
    simp only [parseSub, subNoModify, if_neg hn, idx, List.drop_zero, except_bind_ok, List.drop_succ_cons, zeros_any] at hp
    cases hp; exact PSig.set_self _ _ _
  | noModify =>
    rename_i c h n
    simp only [parseSub, subNoModify, if_neg hn, idx, List.drop_zero, except_bind_ok, List.drop_succ_cons, zeros_any] at hp
    cases hp; exact PSig.set_self _ _ _
  | primary ho =>
    simp only [parseSub, subPrimary, if_neg hn, if_neg (show ¬(env.owner ≠ 13 ∧ env.owner ≠ 17) by omega), idx, List.drop_zero, except_bind_ok] at hp
    cases hp; exact PSig.set_self _ _ _
  | split ht =>
    simp only [parseSub, subKeyFlags, idx, List.drop_zero, except_bind_ok, if_pos (show env.selfsig = true ∧ (env.sigType = 0x1f ∨ env.sigType = 0x18) from ⟨hself, ht⟩)] at hp
    cases hp
    simp [PSig.set, Nat.testBit_eq_decide_div_mod_eq]
  | shared ht =>
    rename_i c h x r
    have hx := x.toNat_lt
    simp only [parseSub, subKeyFlags, idx, List.drop_zero, except_bind_ok, if_pos (show env.selfsig = true ∧ (env.sigType = 0x1f ∨ env.sigType = 0x18) from ⟨hself, ht⟩)] at hp
    cases hp
    rw [PSig.set_self, Nat.testBit_eq_decide_div_mod_eq, show x.toNat / 2 ^ 7 % 2 = x.toNat / 128 by omega]
  | noDetection =>
    simp only [parseSub, subFeatures, if_neg hn, idx, List.drop_zero, except_bind_ok, List.drop_succ_cons, zeros_any] at hp
    cases hp; exact PSig.set_self _ _ _
  | detection =>
    simp only [parseSub, subFeatures, if_neg hn, idx, List.drop_zero, except_bind_ok, List.drop_succ_cons, zeros_any] at hp
    cases hp; exact PSig.set_self _ _ _

/-- C77 (part). In a self-signature that is accepted, the last subpacket of a type also decides the fields that only count in self-signatures, with the meaning RFC 4880
gives it. -/
theorem C77_self_fields_partial (embed : Bytes → Py PSigPacket) (p : PSigPacket) (hv : 4 ≤ p.version) (owner : Nat) (parents : Option (List (Option Str))) (sh : Bool) (s : PSig)
    (h : parseSigPacket embed p owner parents sh = .ok s) (hself : s.selfsig = true) (pre post : List PSub) (sub : PSub) (hp : p.subpackets = pre ++ sub :: post)
    (hlast : ∀ x ∈ post, x.subtype ≠ sub.subtype) (k : PField) (v : PVal) (hs : SaysSelf p.sigType owner sub k v) : s.vals k = some v := by
  obtain ⟨ho, h16⟩ := saysSelf_owner hs
  rw [parse_ok_v4 hv] at h
  obtain ⟨s0, _, h⟩ := except_bind_eq_ok.mp h
  obtain ⟨⟨s1, d1⟩, hr, h⟩ := except_bind_eq_ok.mp h
  obtain ⟨names, _, h⟩ := except_bind_eq_ok.mp h
  cases h
  have h0 : s0.selfsig = true := (subLoop_frame hr).2.1.symm.trans hself
  rw [hp, subLoop_append] at hr
  obtain ⟨⟨s2, d2⟩, _, hr⟩ := except_bind_eq_ok.mp hr
  simp only [subLoop, if_neg h16] at hr
  obtain ⟨s3, h3, hr⟩ := except_bind_eq_ok.mp hr
  show s1.vals k = some v
  rw [(subLoop_frame hr).2.2 k fun x hx e => hlast x hx (Option.some.inj (ho.symm.trans e)).symm]
  exact saysSelf_step (env := ⟨s0.selfsig, p.sigType, owner⟩) h0 hs h3

/-- A self-signature: in version 4 it is recognised only by the first half of the key id (`C73_first_half_only`), as the short parent ids of this case. -/
def exOwn (extra : List PSub) : PSigPacket := { exParsed extra with sigType := 0x13 }

example (extra : List PSub) (s : PSig) (h : parseSigPacket exEmbed (exOwn extra) 13 (some [some "01020304".toList]) false = .ok s) : s.selfsig = true :=
  (C73_first_half_only exEmbed (exOwn extra) (by show 4 ≤ 4; decide) 13 [some "01020304".toList] false s h).mpr
    ⟨⟨16, false, false, [1, 2, 3, 4, 5, 6, 7, 8]⟩, by simp [exOwn, exParsed], rfl, by decide +kernel⟩

example : ∃ s, parseSigPacket exEmbed (exOwn [⟨30, false, true, [1, 0]⟩, ⟨11, false, true, [9, 3]⟩, ⟨9, false, true, [0, 0, 1, 0]⟩]) 13 (some [some "01020304".toList]) false = .ok s ∧
    s.vals .supportsModification = some (.int 1) ∧ s.vals .preferredSym = some (.ints [9, 3]) ∧ s.vals .keyExpirationSeconds = some (.int (beNat [0, 0, 1, 0])) := by
  obtain ⟨s, hs⟩ : ∃ s, parseSigPacket exEmbed (exOwn [⟨30, false, true, [1, 0]⟩, ⟨11, false, true, [9, 3]⟩, ⟨9, false, true, [0, 0, 1, 0]⟩]) 13 (some [some "01020304".toList])
    false = .ok s := accepted_of_map (by decide +kernel)
  have hself : s.selfsig = true := (C73_first_half_only _ _ (by decide) _ _ _ s hs).mpr
    ⟨⟨16, false, false, [1, 2, 3, 4, 5, 6, 7, 8]⟩, by simp [exOwn, exParsed], rfl, by decide +kernel⟩
  refine ⟨s, hs, ?_, ?_, ?_⟩
  · exact C77_self_fields_partial _ _ (by decide) _ _ _ s hs hself ((exParsed []).subpackets.take 3) (([⟨11, false, true, [9, 3]⟩, ⟨9, false, true, [0, 0, 1, 0]⟩] : List PSub) ++
      (exParsed []).subpackets.drop 3) ⟨30, false, true, [1, 0]⟩ rfl (by decide) _ _ (.detection (n := 1))
  · exact C77_self_fields_partial _ _ (by decide) _ _ _ s hs hself ((exParsed []).subpackets.take 3 ++ [⟨30, false, true, [1, 0]⟩]) ([⟨9, false, true, [0, 0, 1, 0]⟩] ++
      (exParsed []).subpackets.drop 3) ⟨11, false, true, [9, 3]⟩ rfl (by decide) _ _ .ciphers
  · exact C77_self_fields_partial _ _ (by decide) _ _ _ s hs hself ((exParsed []).subpackets.take 3 ++ [⟨30, false, true, [1, 0]⟩, ⟨11, false, true, [9, 3]⟩])
      ((exParsed []).subpackets.drop 3) ⟨9, false, true, [0, 0, 1, 0]⟩ rfl (by decide) _ _ (.keyExpiration rfl (by decide))

theorem notSelf_step {embed : Bytes → Py PSigPacket} {env : PEnv} {sub : PSub} (hself : env.selfsig = false) {s s' : PSig}
    (hp : parseSub embed env sub s = .ok s') {k : PField} (hk : k ∈ selfFields) : s'.vals k = s.vals k := by
  have f := frame_parseSub hp
  by_cases hs : ownerType k = some sub.subtype
  · have h27 : ∀ {j}, sub.subtype = 27 → j = .mayHaveBeenSplit ∨ j = .mayHaveMultipleOwners → s'.vals j = s.vals j := by
      intro j h hj
      simp only [parseSub, h, subKeyFlags] at hp
      obtain ⟨x, _, hp⟩ := except_bind_eq_ok.mp hp
      rw [if_neg (by rw [hself]; simp)] at hp
      cases hp
      rcases hj with rfl | rfl <;> simp [PSig.set]
    unfold selfFields at hk
    simp only [List.mem_cons, List.not_mem_nil, or_false] at hk
    rcases hk with rfl | rfl | rfl | rfl | rfl | rfl | rfl | rfl | rfl <;> have ht := (Option.some.inj hs).symm
    · simp only [parseSub, ht, subKeyExpiration, if_pos hself] at hp; cases hp; rfl
    · simp only [parseSub, ht, subPreferences, if_pos hself] at hp; cases hp; rfl
    · simp only [parseSub, ht, subPreferences, if_pos hself] at hp; cases hp; rfl
    · simp only [parseSub, ht, subPreferences, if_pos hself] at hp; cases hp; rfl
    · simp only [parseSub, ht, subNoModify, if_pos hself] at hp; cases hp; rfl
    · simp only [parseSub, ht, subPrimary, if_pos hself] at hp; cases hp; rfl
    · exact h27 ht (.inl rfl)
    · exact h27 ht (.inr rfl)
    · simp only [parseSub, ht, subFeatures, if_pos hself] at hp; cases hp; rfl
  · exact f.vals k hs

/-- C77. These fields are absent from signatures by others, whatever their subpackets. -/
theorem C77_self_only (embed : Bytes → Py PSigPacket) (p : PSigPacket) (hv : 4 ≤ p.version) (owner : Nat) (parents : Option (List (Option Str))) (sh : Bool) (s : PSig)
    (h : parseSigPacket embed p owner parents sh = .ok s) (hself : s.selfsig = false) (k : PField) (hk : k ∈ selfFields) : s.vals k = none := by
  rw [parse_ok_v4 hv] at h
  obtain ⟨s0, hs0, h⟩ := except_bind_eq_ok.mp h
  obtain ⟨⟨s1, d1⟩, hr, h⟩ := except_bind_eq_ok.mp h
  obtain ⟨names, _, h⟩ := except_bind_eq_ok.mp h
  cases h
  have h0 : s0.selfsig = false := (subLoop_frame hr).2.1.symm.trans hself
  show s1.vals k = none
  have key : ∀ l s d s' d', subLoop embed ⟨s0.selfsig, p.sigType, owner⟩ sh l s d = .ok (s', d') → s'.vals k = s.vals k := by
    intro l
    induction l with
    | nil => intro s d s' d' h; cases h; rfl
    | cons x l ih =>
      intro s d s' d' h
      simp only [subLoop] at h
      split at h
      · exact ih _ _ _ _ h
      · obtain ⟨s2, h2, h⟩ := except_bind_eq_ok.mp h
        rw [ih _ _ _ _ h]
        exact notSelf_step (env := ⟨s0.selfsig, p.sigType, owner⟩) h0 h2 hk
  rw [key _ _ _ _ _ hr]
  obtain ⟨ids, self, e⟩ := header_v4 hv hs0
  rw [e]
  unfold selfFields at hk
  simp only [List.mem_cons, List.not_mem_nil, or_false] at hk
  rcases hk with rfl | rfl | rfl | rfl | rfl | rfl | rfl | rfl | rfl <;> rfl

/-- Preferences in a signature by another key. -/
example : ∃ s, parseSigPacket exEmbed (exParsed [⟨11, false, true, [9, 3]⟩]) 13 (some exParents) false = .ok s ∧ s.vals .preferredSym = none := by
  obtain ⟨s, hs⟩ : ∃ s, parseSigPacket exEmbed (exParsed [⟨11, false, true, [9, 3]⟩]) 13 (some exParents) false = .ok s := accepted_of_map (by decide +kernel)
  refine ⟨s, hs, C77_self_only _ _ (by decide) _ _ _ s hs ?_ _ (by unfold selfFields; simp)⟩
  have : (parseSigPacket exEmbed (exParsed [⟨11, false, true, [9, 3]⟩]) 13 (some exParents) false).map (·.selfsig) = .ok false := by decide +kernel
  rw [hs] at this
  exact Except.ok.inj this

theorem splitAt1_domain {name domain : Str} (h : '@' ∉ name) : splitAt1 (name ++ '@' :: domain) = (name, some domain) := by
  have h1 : ∀ c ∈ name, decide (c ≠ '@') = true := fun c hc => decide_eq_true fun e => h (e ▸ hc)
  unfold splitAt1
  rw [List.dropWhile_append_of_pos h1, List.takeWhile_append_of_pos h1]
  simp

theorem splitAt1_plain {name : Str} (h : '@' ∉ name) : splitAt1 name = (name, none) := by
  have h1 : ∀ c ∈ name, decide (c ≠ '@') = true := fun c hc => decide_eq_true fun e => h (e ▸ hc)
  unfold splitAt1
  have e : name.dropWhile (fun c => decide (c ≠ '@')) = [] := by
    have := List.dropWhile_append_of_pos (l₂ := []) h1
    rw [List.append_nil] at this
    rw [this]; rfl
  have e2 : name.takeWhile (fun c => decide (c ≠ '@')) = name := by
    have := List.takeWhile_append_of_pos (l₂ := []) h1
    rwa [List.append_nil, List.takeWhile_nil, List.append_nil] at this
  rw [e]

theorem flag_octet (f : UInt8) : beNat [f, 0, 0, 0] = f.toNat * 16777216 := by
  have : beNat [f, 0, 0, 0] = (((0 * 256 + f.toNat) * 256 + 0) * 256 + 0) * 256 + 0 := rfl
  rw [this]; ring

theorem notation_flags (f : UInt8) : f.toNat * 16777216 % 16777216 = 0 ∧ (f.toNat * 16777216 / 16777216 % 256 = 128 ↔ f = 0x80) := by
  have hf := f.toNat_lt
  refine ⟨Nat.mul_mod_left _ _, ?_⟩
  rw [Nat.mul_div_cancel _ (by decide), Nat.mod_eq_of_lt hf]
  exact ⟨fun e => UInt8.toNat_inj.mp e, fun e => by rw [e]; rfl⟩

theorem notation_read (f : UInt8) (name value : Bytes) (hn : name.length < 65536) (hv : value.length < 65536) (hashed : Bool) :
    parseNotation ([f, 0, 0, 0] ++ beBytes 2 name.length ++ beBytes 2 value.length ++ name ++ value) hashed =
      .ok (some ⟨(splitAt1 (utf8DecodeReplace name)).1, (splitAt1 (utf8DecodeReplace name)).2, decide (f = 0x80),
        if f = 0x80 then utf8DecodeReplace value else b64encode value, hashed⟩) := by
  generalize hd : [f, 0, 0, 0] ++ beBytes 2 name.length ++ beBytes 2 value.length ++ name ++ value = data
  have d0 : data.drop 0 = [f, 0, 0, 0] ++ (beBytes 2 name.length ++ (beBytes 2 value.length ++ (name ++ value))) := by rw [← hd]; simp
  have d4 : data.drop 4 = beBytes 2 name.length ++ (beBytes 2 value.length ++ (name ++ value)) := drop_add_of_drop' d0 rfl
  have d6 : data.drop 6 = beBytes 2 value.length ++ (name ++ value) := drop_add_of_drop' d4 (by rw [beBytes_length])
  have d8 : data.drop 8 = name ++ value := drop_add_of_drop' d6 (by rw [beBytes_length])
  have d9 : data.drop (8 + name.length) = value ++ [] := by rw [List.append_nil]; exact drop_add_of_drop d8
  have c0 : longToInt data 0 = .ok (beNat [f, 0, 0, 0]) := by
    unfold longToInt
    exact bytesToInt_of_drop (n := 4) d0 rfl
  have c4 : shortToInt data 4 = .ok name.length := by
    unfold shortToInt
    rw [bytesToInt_of_drop d4 (by rw [beBytes_length]), beNat_beBytes, Nat.mod_eq_of_lt (show name.length < 256 ^ 2 by omega)]
  have c6 : shortToInt data 6 = .ok value.length := by
    unfold shortToInt
    rw [bytesToInt_of_drop d6 (by rw [beBytes_length]), beNat_beBytes, Nat.mod_eq_of_lt (show value.length < 256 ^ 2 by omega)]
  obtain ⟨hm, hr⟩ := notation_flags f
  rw [← flag_octet] at hm hr
  simp only [parseNotation, c0, c4, c6, except_bind_ok, slice_of_drop d8 rfl, slice_of_drop d9 rfl, hm, hr, except_pure, decide_eq_true_eq, ne_eq, not_true_eq_false, if_false]

theorem noted_step {sub : PSub} {n : PNotation} (h : Noted sub n) (s : PSig) : sub.subtype = 20 ∧ subNotation sub s = .ok { s with notations := s.notations ++ [n] } := by
  cases h with
  | text ha hn hv =>
    refine ⟨rfl, ?_⟩
    simp only [subNotation, notation_read 0x80 _ _ hn hv, except_bind_ok, utf8DecodeReplace_encode, splitAt1_domain ha]
    rfl
  | plain ha hn hv =>
    refine ⟨rfl, ?_⟩
    simp only [subNotation, notation_read 0x80 _ _ hn hv, except_bind_ok, utf8DecodeReplace_encode, splitAt1_plain ha]
    rfl
  | octets ha hn hv =>
    refine ⟨rfl, ?_⟩
    simp only [subNotation, notation_read 0 _ _ hn hv, except_bind_ok, utf8DecodeReplace_encode, splitAt1_domain ha]
    rfl

/-- Only notation subpackets change the notations, only regular expressions the regular expressions. -/
theorem lists_kept {embed : Bytes → Py PSigPacket} {env : PEnv} {sub : PSub} {s s' : PSig} (hp : parseSub embed env sub s = .ok s') :
    (sub.subtype ≠ 20 → s'.notations = s.notations) ∧ (sub.subtype ≠ 6 → s'.regexes = s.regexes) := by
  unfold parseSub at hp
  split at hp
  case h_1 =>
    unfold subCreation at hp
    split at hp
    · cases hp; exact ⟨fun _ => rfl, fun _ => rfl⟩
    · obtain ⟨_, _, hp⟩ := except_bind_eq_ok.mp hp; cases hp; exact ⟨fun _ => rfl, fun _ => rfl⟩
  case h_2 =>
    unfold subExpiration at hp
    obtain ⟨_, _, hp⟩ := except_bind_eq_ok.mp hp
    split at hp <;> cases hp <;> exact ⟨fun _ => rfl, fun _ => rfl⟩
  case h_3 =>
    unfold subExportable at hp
    obtain ⟨_, _, hp⟩ := except_bind_eq_ok.mp hp
    split at hp <;> cases hp; exact ⟨fun _ => rfl, fun _ => rfl⟩
  case h_4 =>
    unfold subTrust at hp
    obtain ⟨_, _, hp⟩ := except_bind_eq_ok.mp hp
    obtain ⟨_, _, hp⟩ := except_bind_eq_ok.mp hp
    cases hp; exact ⟨fun _ => rfl, fun _ => rfl⟩
  case h_5 h6 =>
    unfold subRegex at hp
    obtain ⟨o, _, hp⟩ := except_bind_eq_ok.mp hp
    cases o <;> cases hp
    · exact ⟨fun _ => rfl, fun h => absurd h6 h⟩
    · exact ⟨fun _ => rfl, fun _ => rfl⟩
  case h_6 =>
    unfold subRevocable at hp
    obtain ⟨_, _, hp⟩ := except_bind_eq_ok.mp hp
    cases hp; exact ⟨fun _ => rfl, fun _ => rfl⟩
  case h_7 =>
    unfold subKeyExpiration at hp
    split at hp
    · cases hp; exact ⟨fun _ => rfl, fun _ => rfl⟩
    · obtain ⟨_, _, hp⟩ := except_bind_eq_ok.mp hp
      split at hp <;> cases hp <;> exact ⟨fun _ => rfl, fun _ => rfl⟩
  case h_9 =>
    unfold subRevocationKey at hp
    obtain ⟨_, _, hp⟩ := except_bind_eq_ok.mp hp
    split at hp
    · cases hp; exact ⟨fun _ => rfl, fun _ => rfl⟩
    · obtain ⟨_, _, hp⟩ := except_bind_eq_ok.mp hp
      obtain ⟨_, _, hp⟩ := except_bind_eq_ok.mp hp
      cases hp; exact ⟨fun _ => rfl, fun _ => rfl⟩
  case h_10 =>
    unfold subIssuer at hp
    obtain ⟨_, _, hp⟩ := except_bind_eq_ok.mp hp
    cases hp; exact ⟨fun _ => rfl, fun _ => rfl⟩
  case h_11 h20 =>
    unfold subNotation at hp
    obtain ⟨o, _, hp⟩ := except_bind_eq_ok.mp hp
    cases o with
    | none => cases hp; exact ⟨fun _ => rfl, fun _ => rfl⟩
    | some n =>
      dsimp only at hp
      split at hp <;> cases hp; exact ⟨fun h => absurd h20 h, fun _ => rfl⟩
  case h_8 | h_12 | h_13 =>
    unfold subPreferences at hp
    split at hp <;> cases hp <;> exact ⟨fun _ => rfl, fun _ => rfl⟩
  case h_14 =>
    unfold subNoModify at hp
    split at hp
    · cases hp; exact ⟨fun _ => rfl, fun _ => rfl⟩
    · obtain ⟨_, _, hp⟩ := except_bind_eq_ok.mp hp
      split at hp <;> cases hp <;> exact ⟨fun _ => rfl, fun _ => rfl⟩
  case h_15 | h_17 | h_19 => cases hp; exact ⟨fun _ => rfl, fun _ => rfl⟩
  case h_16 =>
    unfold subPrimary at hp
    split at hp
    · cases hp; exact ⟨fun _ => rfl, fun _ => rfl⟩
    · split at hp
      · cases hp; exact ⟨fun _ => rfl, fun _ => rfl⟩
      · obtain ⟨_, _, hp⟩ := except_bind_eq_ok.mp hp
        cases hp; exact ⟨fun _ => rfl, fun _ => rfl⟩
  case h_18 =>
    unfold subKeyFlags at hp
    obtain ⟨_, _, hp⟩ := except_bind_eq_ok.mp hp
    dsimp only at hp
    split at hp <;> cases hp <;> exact ⟨fun _ => rfl, fun _ => rfl⟩
  case h_20 =>
    unfold subRevocationReason at hp
    split at hp
    · cases hp; exact ⟨fun _ => rfl, fun _ => rfl⟩
    · obtain ⟨_, _, hp⟩ := except_bind_eq_ok.mp hp
      split at hp <;> cases hp <;> exact ⟨fun _ => rfl, fun _ => rfl⟩
  case h_21 =>
    unfold subFeatures at hp
    split at hp
    · cases hp; exact ⟨fun _ => rfl, fun _ => rfl⟩
    · obtain ⟨_, _, hp⟩ := except_bind_eq_ok.mp hp
      split at hp
      · cases hp; exact ⟨fun _ => rfl, fun _ => rfl⟩
      · split at hp <;> cases hp <;> exact ⟨fun _ => rfl, fun _ => rfl⟩
  case h_22 =>
    unfold subTarget at hp
    obtain ⟨_, _, hp⟩ := except_bind_eq_ok.mp hp
    obtain ⟨_, _, hp⟩ := except_bind_eq_ok.mp hp
    obtain ⟨_, _, hp⟩ := except_bind_eq_ok.mp hp
    cases hp; exact ⟨fun _ => rfl, fun _ => rfl⟩
  case h_23 => obtain ⟨e, he⟩ := subEmbedded_raises embed sub; rw [he] at hp; cases hp
  case h_24 =>
    unfold subUnknown at hp
    split at hp <;> cases hp; exact ⟨fun _ => rfl, fun _ => rfl⟩

/-- A regular expression: the pattern in ASCII, and a zero octet; the pattern is a valid one. -/
def PatternOf (sub : PSub) (r : Str × Bool) : Prop :=
  ∃ d : Bytes, (∀ x ∈ d, x.toNat < 128) ∧ sub.subtype = 6 ∧ sub.data = d ++ [0] ∧ r = (d.map fun x => Char.ofNat x.toNat, sub.hashed) ∧ validateRegex r.1 = .ok none

theorem pattern_step {sub : PSub} {r : Str × Bool} (h : PatternOf sub r) (s : PSig) : sub.subtype = 6 ∧ subRegex sub s = .ok { s with regexes := s.regexes ++ [r] } := by
  obtain ⟨d, h1, h2, h3, rfl, h5⟩ := h
  refine ⟨h2, ?_⟩
  have e : asciiDecodeReplace sub.data.dropLast = d.map fun x => Char.ofNat x.toNat := by
    rw [h3, List.dropLast_concat]
    exact List.map_congr_left fun x hx => by rw [if_pos (h1 x hx)]
  simp only [subRegex, e, h5, except_bind_ok]
  rfl

/-- C77 (part). The notations and the regular expressions of an accepted signature are those of its subpackets, in order, with the meaning RFC 4880 gives them. -/
theorem C77_lists_partial (embed : Bytes → Py PSigPacket) (p : PSigPacket) (hv : 4 ≤ p.version) (owner : Nat) (parents : Option (List (Option Str))) (sh : Bool) (s : PSig)
    (h : parseSigPacket embed p owner parents sh = .ok s) :
    (∀ ns, List.Forall₂ Noted (p.subpackets.filter (·.subtype = 20)) ns → s.notations = ns) ∧
    (∀ rs, List.Forall₂ PatternOf (p.subpackets.filter (·.subtype = 6)) rs → s.regexes = rs) := by
  rw [parse_ok_v4 hv] at h
  obtain ⟨s0, hs0, h⟩ := except_bind_eq_ok.mp h
  obtain ⟨⟨s1, d1⟩, hr, h⟩ := except_bind_eq_ok.mp h
  obtain ⟨names, _, h⟩ := except_bind_eq_ok.mp h
  cases h
  have hs : s0.notations = [] ∧ s0.regexes = [] := by
    obtain ⟨ids, self, e⟩ := header_v4 hv hs0
    rw [e]; exact ⟨rfl, rfl⟩
  have key : ∀ l s d s' d', subLoop embed ⟨s0.selfsig, p.sigType, owner⟩ sh l s d = .ok (s', d') →
      (∀ ns, List.Forall₂ Noted (l.filter (·.subtype = 20)) ns → s'.notations = s.notations ++ ns) ∧
      (∀ rs, List.Forall₂ PatternOf (l.filter (·.subtype = 6)) rs → s'.regexes = s.regexes ++ rs) := by
    intro l
    induction l with
    | nil =>
      intro s d s' d' h
      cases h
      exact ⟨fun ns h => by cases h; simp, fun rs h => by cases h; simp⟩
    | cons x l ih =>
      intro s d s' d' h
      simp only [subLoop] at h
      split at h
      · rename_i h16
        obtain ⟨i1, i2⟩ := ih _ _ _ _ h
        refine ⟨fun ns hn => i1 ns ?_, fun rs hn => i2 rs ?_⟩
        · rwa [List.filter_cons_of_neg (by rw [h16]; decide)] at hn
        · rwa [List.filter_cons_of_neg (by rw [h16]; decide)] at hn
      · obtain ⟨s2, h2, h⟩ := except_bind_eq_ok.mp h
        obtain ⟨i1, i2⟩ := ih _ _ _ _ h
        obtain ⟨k1, k2⟩ := lists_kept h2
        refine ⟨fun ns hn => ?_, fun rs hn => ?_⟩
        · by_cases h20 : x.subtype = 20
          · rw [List.filter_cons_of_pos (by rw [h20]; decide)] at hn
            obtain ⟨n, ns', hx, hl, rfl⟩ := List.forall₂_cons_left_iff.mp hn
            have := (noted_step hx s).2
            simp only [parseSub, h20] at h2
            rw [this] at h2
            cases h2
            rw [i1 ns' hl, List.append_assoc]; rfl
          · rw [List.filter_cons_of_neg (by simp [h20])] at hn
            rw [i1 ns hn, k1 h20]
        · by_cases h6 : x.subtype = 6
          · rw [List.filter_cons_of_pos (by rw [h6]; decide)] at hn
            obtain ⟨n, ns', hx, hl, rfl⟩ := List.forall₂_cons_left_iff.mp hn
            have := (pattern_step hx s).2
            simp only [parseSub, h6] at h2
            rw [this] at h2
            cases h2
            rw [i2 ns' hl, List.append_assoc]; rfl
          · rw [List.filter_cons_of_neg (by simp [h6])] at hn
            rw [i2 rs hn, k2 h6]
  obtain ⟨k1, k2⟩ := key _ _ _ _ _ hr
  exact ⟨fun ns hn => by have := k1 ns hn; rw [hs.1] at this; exact this, fun rs hn => by have := k2 rs hn; rw [hs.2] at this; exact this⟩

/-- Two notations and a regular expression. -/
example : ∃ s, parseSigPacket exEmbed (exParsed [⟨20, false, true, [0x80, 0, 0, 0, 0, 3, 0, 2, 97, 64, 98, 104, 105]⟩, ⟨6, false, true, [97, 43, 0]⟩,
      ⟨20, false, false, [0, 0, 0, 0, 0, 3, 0, 2, 99, 64, 100, 0, 255]⟩]) 13 (some exParents) false = .ok s ∧
    s.notations = [⟨"a".toList, some "b".toList, true, "hi".toList, true⟩, ⟨"c".toList, some "d".toList, false, b64encode [0, 255], false⟩] ∧
    s.regexes = [("a+".toList, true)] := by
  obtain ⟨s, hs⟩ : ∃ s, parseSigPacket exEmbed (exParsed [⟨20, false, true, [0x80, 0, 0, 0, 0, 3, 0, 2, 97, 64, 98, 104, 105]⟩, ⟨6, false, true, [97, 43, 0]⟩,
      ⟨20, false, false, [0, 0, 0, 0, 0, 3, 0, 2, 99, 64, 100, 0, 255]⟩]) 13 (some exParents) false = .ok s := accepted_of_map (by decide +kernel)
  obtain ⟨h1, h2⟩ := C77_lists_partial exEmbed _ (by decide) 13 (some exParents) false s hs
  refine ⟨s, hs, h1 _ (.cons ?_ (.cons ?_ .nil)), h2 _ (.cons ?_ .nil)⟩
  · have e : ([0x80, 0, 0, 0, 0, 3, 0, 2, 97, 64, 98, 104, 105] : Bytes) = [0x80, 0, 0, 0] ++ beBytes 2 (utf8Encode ("a".toList ++ '@' :: "b".toList)).length ++
        beBytes 2 (utf8Encode "hi".toList).length ++ utf8Encode ("a".toList ++ '@' :: "b".toList) ++ utf8Encode "hi".toList := by decide +kernel
    rw [e]
    exact .text (by decide +kernel) (by decide +kernel) (by decide +kernel)
  · have e : ([0, 0, 0, 0, 0, 3, 0, 2, 99, 64, 100, 0, 255] : Bytes) = [0, 0, 0, 0] ++ beBytes 2 (utf8Encode ("c".toList ++ '@' :: "d".toList)).length ++
        beBytes 2 ([0, 255] : Bytes).length ++ utf8Encode ("c".toList ++ '@' :: "d".toList) ++ [0, 255] := by decide +kernel
    rw [e]
    exact .octets (by decide +kernel) (by decide +kernel) (by decide +kernel)
  · exact ⟨[97, 43], by decide, rfl, rfl, by decide +kernel, by decide +kernel⟩

end Pgp.Props
