import Verif.Props.SigWire
import Verif.Props.KeyFile
import Verif.Spec.Settle
/-
C122: what is written after reading is in the form of Spec/SigWire and Spec/KeyFile.
-/
namespace Pgp
open Spec Props

theorem utf8Units_ne_nil {b : Bytes} (h : b ≠ []) : utf8Units b ≠ [] := by
  cases b with
  | nil => exact absurd rfl h
  | cons x t =>
    unfold utf8Units
    dsimp only
    repeat' split
    all_goals simp

theorem utf8DecodeReplace_ne_nil {b : Bytes} (h : b ≠ []) : utf8DecodeReplace b ≠ [] := by
  unfold utf8DecodeReplace
  simpa using utf8Units_ne_nil h

theorem note_settles {name v : List Char} {ns : Option (List Char)} (hn : '@' ∉ name) (hv : (utf8Encode v).length < 65536)
    (hl : (utf8Encode (name ++ (ns.map ('@' :: ·)).getD [])).length < 65536) : Kept 20 (noteContent name ns (.text v)) := by
  have hle : (noteName name ns).length < 65536 := by
    refine lt_of_le_of_lt ?_ hl
    unfold noteName
    split
    · rename_i c s
      rw [Option.map_some, Option.getD_some, utf8Encode_append, show '@' :: c :: s = ['@'] ++ (c :: s) from rfl, utf8Encode_append]
      simp only [List.length_append]
      have : (utf8Encode ['@']).length = 1 := rfl
      simp only [this, List.length_cons, List.length_nil]
      omega
    · rw [utf8Encode_append]; simp
  have hd : ∀ d, d = noteContent name ns (.text v) → d = [0x80, 0, 0, 0] ++ (intTo2byte (noteName name ns).length ++ (intTo2byte (utf8Encode v).length ++
      (noteName name ns ++ utf8Encode v))) := by
    rintro _ rfl; simp only [noteContent, List.append_assoc]
  generalize hD : noteContent name ns (.text v) = d
  have hd := hd d hD.symm
  have d0 : d.drop 0 = _ := hd
  have d4 := drop_add_of_drop' d0 (n := 4) rfl
  rw [Nat.zero_add] at d4
  have d6 := drop_add_of_drop' d4 (n := 2) rfl
  norm_num at d6
  refine note_kept hD (shortToInt_of_drop d4) (shortToInt_of_drop d6) ?_ hn
  rw [Nat.mod_eq_of_lt (by norm_num; omega), Nat.mod_eq_of_lt (by norm_num; omega), hd]
  simp only [List.length_append, intTo2byte_length, List.length_cons, List.length_nil]; omega

/-- What is read from a subpacket other than an embedded signature is written as content that is kept. -/
theorem plain_settles {ty : Nat} {d c : Bytes} {v : Plain} (hty : ty < 128) (h32 : ty ≠ 32) (h : parsePlain ty d = .ok v) (hs : PlainStorable v)
    (hc : v.content = .ok c) : v.type = ty ∧ Kept ty c := by
  unfold parsePlain at h
  split at h
  · obtain ⟨t, h1, h⟩ := except_bind_eq_ok.mp h; cases h; cases hc; exact ⟨rfl, .time (by decide) rfl⟩
  · obtain ⟨t, h1, h⟩ := except_bind_eq_ok.mp h; cases h; cases hc; exact ⟨rfl, .time (by decide) rfl⟩
  · obtain ⟨b, h1, h⟩ := except_bind_eq_ok.mp h; cases h; cases hc; exact ⟨rfl, .bool (by decide) (by cases b <;> decide)⟩
  · unfold readTrust at h
    obtain ⟨_, h1, h⟩ := except_bind_eq_ok.mp h
    obtain ⟨x, _, h⟩ := except_bind_eq_ok.mp h
    obtain ⟨y, _, h⟩ := except_bind_eq_ok.mp h
    cases h
    simp only [Plain.content, byteOf_toNat, except_bind_ok, except_pure, Except.ok.injEq] at hc
    rw [← hc]
    exact ⟨rfl, .trust rfl⟩
  · unfold readRegex at h
    obtain ⟨_, h1, h⟩ := except_bind_eq_ok.mp h
    obtain ⟨_, h2, h⟩ := except_bind_eq_ok.mp h
    cases h
    exact hs.elim
  · obtain ⟨b, h1, h⟩ := except_bind_eq_ok.mp h; cases h; cases hc; exact ⟨rfl, .bool (by decide) (by cases b <;> decide)⟩
  · obtain ⟨t, h1, h⟩ := except_bind_eq_ok.mp h; cases h; cases hc; exact ⟨rfl, .time (by decide) rfl⟩
  · unfold readAdditionalRecipient at h
    obtain ⟨_, _, h⟩ := except_bind_eq_ok.mp h
    obtain ⟨_, _, h⟩ := except_bind_eq_ok.mp h
    obtain ⟨_, _, h⟩ := except_bind_eq_ok.mp h
    cases h
    exact hs.elim
  · cases h; exact ⟨rfl, .codes c (by decide)⟩
  · unfold readRevocationKey at h
    obtain ⟨_, h1, h⟩ := except_bind_eq_ok.mp h
    cases h
  · unfold readIssuer at h
    obtain ⟨_, h1, h⟩ := except_bind_eq_ok.mp h
    obtain ⟨k, _, h⟩ := except_bind_eq_ok.mp h
    cases h
    simp only [Plain.content, hexToBytes] at hc
    obtain ⟨r, _, hc⟩ := except_bind_eq_ok.mp hc
    cases hc
    refine ⟨rfl, .issuer ?_⟩
    unfold lastN
    rw [if_neg (by decide)]
    simp only [List.length_drop, List.length_append, List.length_replicate]
    omega
  · unfold readNote at h
    obtain ⟨_, _, h⟩ := except_bind_eq_ok.mp h
    obtain ⟨_, _, h⟩ := except_bind_eq_ok.mp h
    obtain ⟨_, _, h⟩ := except_bind_eq_ok.mp h
    obtain ⟨_, _, h⟩ := except_bind_eq_ok.mp h
    obtain ⟨nl, h1, h⟩ := except_bind_eq_ok.mp h
    obtain ⟨vl, h2, h⟩ := except_bind_eq_ok.mp h
    dsimp only at h
    obtain ⟨_, h3, h⟩ := except_bind_eq_ok.mp h
    cases h
    simp only [Plain.content, Except.ok.injEq] at hc
    rw [← hc]
    exact ⟨rfl, note_settles (splitAt_spec _).1 hs.1 hs.2⟩
  · cases h; exact ⟨rfl, .codes c (by decide)⟩
  · cases h; exact ⟨rfl, .codes c (by decide)⟩
  · obtain ⟨x, h1, h⟩ := except_bind_eq_ok.mp h
    cases h
    simp only [Plain.content, Except.ok.injEq] at hc
    rw [← hc]
    exact ⟨rfl, .serverPrefs (by split <;> simp)⟩
  · obtain ⟨u, h1, h⟩ := except_bind_eq_ok.mp h
    cases h
    simp only [Plain.content, Except.ok.injEq] at hc
    refine ⟨rfl, .uri (by decide) ?_ ⟨_, hc⟩⟩
    rw [← hc]
    intro e
    have h2 := uri_kept h1
    unfold readUri at h1
    obtain ⟨_, _, h1⟩ := except_bind_eq_ok.mp h1
    cases h1
    exact utf8DecodeReplace_ne_nil h2 (utf8Encode_eq_nil.mp e)
  · obtain ⟨b, h1, h⟩ := except_bind_eq_ok.mp h; cases h; cases hc; exact ⟨rfl, .bool (by decide) (by cases b <;> decide)⟩
  · obtain ⟨u, h1, h⟩ := except_bind_eq_ok.mp h
    cases h
    simp only [Plain.content, Except.ok.injEq] at hc
    refine ⟨rfl, .uri (by decide) ?_ ⟨_, hc⟩⟩
    rw [← hc]
    intro e
    have h2 := uri_kept h1
    unfold readUri at h1
    obtain ⟨_, _, h1⟩ := except_bind_eq_ok.mp h1
    cases h1
    exact utf8DecodeReplace_ne_nil h2 (utf8Encode_eq_nil.mp e)
  · obtain ⟨x, h1, h⟩ := except_bind_eq_ok.mp h
    cases h
    simp only [Plain.content] at hc
    obtain ⟨y, h2, hc⟩ := except_bind_eq_ok.mp hc
    cases hc
    refine ⟨rfl, .flags ?_⟩
    rw [byteOf_lt (keyFlags_write _).1] at h2
    cases h2
    rw [toNat_ofNat_lt (keyFlags_write _).1]
    generalize KeyFlags.ofOctet x = f
    obtain ⟨a, b, c, d, e, g, h⟩ := f
    revert a b c d e g h; decide +kernel
  · obtain ⟨s, h1, h⟩ := except_bind_eq_ok.mp h
    cases h
    cases hc
    exact ⟨rfl, .userId ⟨s, rfl⟩⟩
  · unfold readReason at h
    obtain ⟨c, h1, h⟩ := except_bind_eq_ok.mp h
    cases h
    simp only [Plain.content, byteOf_toNat, except_bind_ok, except_pure, Except.ok.injEq] at hc
    rw [← hc]
    exact ⟨rfl, .reason ⟨_, rfl⟩⟩
  · obtain ⟨x, h1, h⟩ := except_bind_eq_ok.mp h
    cases h
    simp only [Plain.content, Except.ok.injEq] at hc
    rw [← hc]
    exact ⟨rfl, .features (by split <;> simp)⟩
  · exfalso
    unfold readTarget at h
    iterate 5 obtain ⟨_, _, h⟩ := except_bind_eq_ok.mp h
    cases h
    simp only [Plain.content] at hc
    obtain ⟨_, _, hc⟩ := except_bind_eq_ok.mp hc
    cases hc
  · cases h
    cases hc
    exact ⟨rfl, .other hty (by simp only [knownTypes, List.mem_cons, List.not_mem_nil, or_false]; tauto)⟩

/-- Where a subpacket comes from. -/
def SubRead : Sub → Prop
  | .plain _ v => ∃ ty d, ty < 128 ∧ ty ≠ 32 ∧ parsePlain ty d = .ok v
  | .embedded _ sig => ∃ d, parseSig d = .ok sig

theorem subHeader_type {data sub : Bytes} {off ty off' : Nat} {critical : Bool} (h : subHeader data off = .ok (ty, critical, sub, off')) : ty < 128 := by
  unfold subHeader at h
  obtain ⟨⟨o, n, p⟩, h1, h⟩ := except_bind_eq_ok.mp h
  obtain ⟨_, h2, h⟩ := except_bind_eq_ok.mp h
  obtain ⟨tag, h3, h⟩ := except_bind_eq_ok.mp h
  cases h
  have := @Nat.and_le_right tag.toNat 127
  omega

theorem subs_read {data : Bytes} {stop : Nat} : ∀ (n off : Nat) {l : List Sub} {o : Nat}, data.length - off ≤ n → parseSubs data off stop = .ok (l, o) → ∀ s ∈ l, SubRead s := by
  intro n
  induction n with
  | zero =>
    intro off l o hn h
    rw [parseSubs_eq] at h
    split at h
    · split at h
      · cases h
      · rename_i hs
        have := subHeader_progress hs
        omega
    · cases h; simp
  | succ n ih =>
    intro off l o hn h
    rw [parseSubs_eq] at h
    split at h
    · split at h
      · cases h
      · rename_i ty critical sub off' hs
        have hp := subHeader_progress hs
        obtain ⟨s, h1, h⟩ := except_bind_eq_ok.mp h
        obtain ⟨⟨l', o'⟩, h2, h⟩ := except_bind_eq_ok.mp h
        cases h
        intro x hx
        rcases List.mem_cons.mp hx with rfl | hx
        · unfold readSub at h1
          split at h1
          · obtain ⟨sig, h3, h1⟩ := except_bind_eq_ok.mp h1
            cases h1
            exact ⟨sub, h3⟩
          · rename_i h32
            obtain ⟨v, h3, h1⟩ := except_bind_eq_ok.mp h1
            cases h1
            exact ⟨ty, sub, subHeader_type hs, h32, h3⟩
        · exact ih off' (by omega) h2 x hx
    · cases h; simp

/-- The shape of a signature that was read. -/
theorem sig_read {data : Bytes} {t p h version : Nat} {hashed unhashed : List Sub} {hash2 : Bytes} {values : List (Option Nat)}
    (hr : parseSig data = .ok (.v4 version t p h hashed unhashed hash2 values)) :
    version = 4 ∧ t < 256 ∧ p < 256 ∧ h < 256 ∧ (∀ s ∈ hashed, SubRead s) ∧ (∀ s ∈ unhashed, SubRead s) ∧ ∃ vs : List Nat, values = vs.map some := by
  rw [parseSig_eq] at hr
  obtain ⟨v, _, hr⟩ := except_bind_eq_ok.mp hr
  split at hr
  · unfold parseSigV3 at hr
    obtain ⟨_, _, hr⟩ := except_bind_eq_ok.mp hr
    split at hr
    · cases hr
    · iterate 5 obtain ⟨_, _, hr⟩ := except_bind_eq_ok.mp hr
      obtain ⟨⟨_, _⟩, _, hr⟩ := except_bind_eq_ok.mp hr
      cases hr
  · split at hr
    · obtain ⟨t', _, hr⟩ := except_bind_eq_ok.mp hr
      obtain ⟨p', _, hr⟩ := except_bind_eq_ok.mp hr
      obtain ⟨h', _, hr⟩ := except_bind_eq_ok.mp hr
      obtain ⟨l1, _, hr⟩ := except_bind_eq_ok.mp hr
      obtain ⟨⟨hs, o1⟩, g1, hr⟩ := except_bind_eq_ok.mp hr
      obtain ⟨l2, _, hr⟩ := except_bind_eq_ok.mp hr
      obtain ⟨⟨us, o2⟩, g2, hr⟩ := except_bind_eq_ok.mp hr
      obtain ⟨⟨h2, vs⟩, g3, hr⟩ := except_bind_eq_ok.mp hr
      cases hr
      unfold sigTail at g3
      obtain ⟨vs', _, g3⟩ := except_bind_eq_ok.mp g3
      cases g3
      exact ⟨rfl, uint8_lt _, uint8_lt _, uint8_lt _, subs_read _ _ le_rfl g1, subs_read _ _ le_rfl g2, vs', rfl⟩
    · cases hr

theorem shortest_of_bytes {n : Nat} {l : Bytes} {m : Nat} (h : newPacketLengthToBytes n false = .ok (l, m)) : Shortest l n := by
  have hn : n ≤ 4294967295 := by
    by_contra hc
    unfold newPacketLengthToBytes at h
    simp only [Bool.false_eq_true, if_false] at h
    split at h
    · omega
    · split at h
      · omega
      · split at h
        · rename_i hm
          unfold MAX_PACKET_LENGTH at hm
          omega
        · cases h
  obtain ⟨e, h1, h2, h3⟩ := C06_new_length_shortest n (by simpa using hn) false
  rw [h] at h1
  cases h1
  exact ⟨h2, h3⟩

theorem subBytes_wire {ty : Nat} {critical : Bool} {c e : Bytes} (hty : ty < 128) (h : subBytes ty critical c = .ok e) :
    ∃ l, Shortest l (c.length + 1) ∧ e = l ++ [UInt8.ofNat (ty + if critical then 128 else 0)] ++ c := by
  unfold subBytes at h
  obtain ⟨⟨l, m⟩, h1, h⟩ := except_bind_eq_ok.mp h
  dsimp only at h
  rw [byteOf_lt (by split <;> omega)] at h
  cases h
  exact ⟨l, shortest_of_bytes h1, rfl⟩

mutual
theorem sub_settles {fl : Nat → Nat} {good : Nat → Prop} (hg : ∀ i, good i → LogRoom fl i ∧ (0 < i → fl i = Nat.log2 i)) :
    ∀ {s : Sub}, SubStorable fl good s → SubRead s → ∀ e, Sub.toBytes fl s = .ok e → SubWire good e
  | _, .plain h, hr, e, he => by
    obtain ⟨ty, d, h1, h2, h3⟩ := hr
    rw [Sub.toBytes] at he
    obtain ⟨c, h4, he⟩ := except_bind_eq_ok.mp he
    obtain ⟨h5, h6⟩ := plain_settles h1 h2 h3 h h4
    rw [h5] at he
    obtain ⟨l, h7, rfl⟩ := subBytes_wire h1 he
    exact .plain h7 h6
  | _, .embedded h, hr, e, he => by
    obtain ⟨d, h1⟩ := hr
    rw [Sub.toBytes] at he
    obtain ⟨c, h4, he⟩ := except_bind_eq_ok.mp he
    obtain ⟨l, h7, rfl⟩ := subBytes_wire (by decide) he
    exact .embedded h7 (sig_settles hg h d h1 c h4)

/-- A signature that was read and can be stored is written in the form of Spec/SigWire. -/
theorem sig_settles {fl : Nat → Nat} {good : Nat → Prop} (hg : ∀ i, good i → LogRoom fl i ∧ (0 < i → fl i = Nat.log2 i)) :
    ∀ {s : Sig}, SigStorable fl good s → ∀ d, parseSig d = .ok s → ∀ e, Sig.content fl s = .ok e → SigWire good e
  | _, .v4 (t := t) (p := p) (h := h) (hashed := hashed) (unhashed := unhashed) (hash2 := hash2) hh hu lh lu h2 hv, d, hr, e, he => by
    obtain ⟨rfl, ht, hp, hh', r1, r2, vs, rfl⟩ := sig_read hr
    have subs : ∀ l : List Sub, (∀ s ∈ l, ∀ e, Sub.toBytes fl s = .ok e → SubWire good e) → ∀ e, subsBytes fl l = .ok e → SubsWire good e := by
      intro l hl
      induction l with
      | nil => intro e he; rw [subsBytes] at he; cases he; exact .nil
      | cons s l ih =>
        intro e he
        rw [subsBytes] at he
        obtain ⟨a, h1, he⟩ := except_bind_eq_ok.mp he
        obtain ⟨b, h3, he⟩ := except_bind_eq_ok.mp he
        cases he
        exact .cons (hl s (by simp) a h1) (ih (fun s hs => hl s (by simp [hs])) b h3)
    rw [Sig.content, byteOf_lt (show 4 < 256 by decide), byteOf_lt ht, byteOf_lt hp, byteOf_lt hh'] at he
    simp only [except_bind_ok] at he
    obtain ⟨hd, h3, he⟩ := except_bind_eq_ok.mp he
    obtain ⟨ud, h4, he⟩ := except_bind_eq_ok.mp he
    rw [sigValues_mpis fun i hi => (hg i (hv i (List.mem_map_of_mem hi))).2] at he
    cases he
    match hash2, h2 with
    | [x, y], _ =>
      rw [intTo2byte_eq, intTo2byte_eq]
      exact .mk (subs hashed (fun s hs => sub_settles hg (hh s hs) (r1 s hs)) hd h3) (subs unhashed (fun s hs => sub_settles hg (hu s hs) (r2 s hs)) ud h4)
        (lh hd h3) (lu ud h4) (fun i hi => hv i (List.mem_map_of_mem hi))
end

end Pgp
