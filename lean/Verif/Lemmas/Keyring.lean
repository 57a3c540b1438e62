import Verif.Spec.Keyring
import Verif.Props.Framing
/-
Lemmas about keyring files.
-/
namespace Pgp
open Spec

theorem packetOctets_stream {p : RawPacket} (h : Expressible p) :
    packetOctets p ≠ [] ∧ ∀ s, packetFromStream (packetOctets p ++ s) = .ok (p, s) := by
  obtain ⟨e, hne, he, hrt⟩ := frame_roundtrip h 0
  have hpo : packetOctets p = e := by unfold packetOctets; rw [he]
  rw [hpo]
  refine ⟨hne, fun s => ?_⟩
  have hdata := hrt (data := e ++ s) (s := s) (off := 0) rfl
  have key : ∀ b rest, e ++ s = b :: rest → ((b.toNat &&& 0x40 ≠ 0 ∧ ∀ o n, newPacketLength (b :: rest) 1 ≠ .ok (o, n, true)) ∨
            (b.toNat &&& 0x40 = 0 ∧ b.toNat % 4 ≠ 3)) → packetFromStream (e ++ s) = .ok (p, s) := by
    intro b rest hb hd
    rw [hb] at hdata ⊢
    refine (Props.C13_stream_memory_agree b rest hd p s).mpr ⟨_, hdata, ?_⟩
    rw [← hb]; simp
  rcases h with ⟨hf, ht, hl1, hl2⟩ | ⟨hf, ht, hl⟩
  · obtain ⟨l, hl, hs⟩ := serialize_new hf ht (by intro hc; rw [hc] at hl1; simp at hl1) hl2 0
    rw [hs] at he
    cases he
    refine key _ (l ++ p.content ++ s) rfl (Or.inl ⟨?_, ?_⟩)
    · rw [toNat_ofNat_lt (by omega)]
      have : ∀ t : Fin 64, (0x80 + (0x40 + t.val)) &&& 0x40 ≠ 0 := by decide
      exact this ⟨p.type, ht⟩
    · intro o n hn
      rw [newPacketLength_definite (e := l) (s := p.content ++ s) (off := 1) (by simp) hl] at hn
      cases hn
  · obtain ⟨lt, l, hlt, hl, hs⟩ := serialize_old hf ht hl 1
    rw [hs] at he
    cases he
    have hsh : p.type <<< 2 = p.type * 4 := Nat.shiftLeft_eq _ 2
    refine key _ (l ++ p.content ++ s) rfl (Or.inr ⟨?_, ?_⟩)
    · rw [toNat_ofNat_lt (by omega)]
      have : ∀ t : Fin 16, ∀ l : Fin 3, (0x80 + (t.val <<< 2) + l.val) &&& 0x40 = 0 := by decide
      exact this ⟨p.type, ht⟩ ⟨lt, hlt⟩
    · rw [toNat_ofNat_lt (by omega)]; omega

/-- A packet that can be written and read. -/
def Good (I : PacketInfo) (p : RawPacket) : Prop := Expressible p ∧ I.check p = .ok ()

theorem nextPacket_good {I : PacketInfo} {p : RawPacket} (h : Good I p) (s : Bytes) :
    packetOctets p ++ s ≠ [] ∧ nextPacket I (packetOctets p ++ s) = .ok (p, s) := by
  obtain ⟨h1, h2⟩ := packetOctets_stream h.1
  refine ⟨by simp [h1], ?_⟩
  unfold nextPacket
  rw [h2 s]
  simp [h.2]

theorem shortId_eq (k : List Char) : lastN k 8 = shortId k := by simp [lastN, shortId]

theorem isKeyType_iff (t : Nat) : isKeyType t = true ↔ t = 6 ∨ t = 5 := by simp [isKeyType]

theorem packetsOctets_cons (p : RawPacket) (ps : List RawPacket) : packetsOctets (p :: ps) = packetOctets p ++ packetsOctets ps := by
  simp [packetsOctets]

theorem scanLoop_rest {I : PacketInfo} (size fuel : Nat) (s : Bytes) (fmt : HeaderFormat) (t : OffsetTable) :
    ∀ ps : List RawPacket, (∀ p ∈ ps, Good I p) → (∀ p ∈ ps, p.type ≠ 6 ∧ p.type ≠ 5) →
      scanLoop I size (fuel + ps.length) (packetsOctets ps ++ s) (some fmt) t = scanLoop I size fuel s (some fmt) t := by
  intro ps
  induction ps with
  | nil => intros; simp [packetsOctets]
  | cons p ps ih =>
    intro hg ht
    have h1 := nextPacket_good (hg p (by simp)) (packetsOctets ps ++ s)
    have h2 := ht p (by simp)
    have h3 : isKeyType p.type = false := by
      rw [Bool.eq_false_iff, Ne, isKeyType_iff]; omega
    rw [packetsOctets_cons, List.length_cons, ← Nat.add_assoc, scanLoop, List.append_assoc, if_neg h1.1]
    rw [h1.2]
    simp only [except_bind_ok, h3, Bool.false_eq_true, if_false, Option.some_or]
    exact ih (fun q hq => hg q (by simp [hq])) (fun q hq => ht q (by simp [hq]))

theorem Spec.KeyBlock.WF.good {I : PacketInfo} {b : KeyBlock} (h : b.WF I) : ∀ p ∈ b.packets, Good I p :=
  fun p hp => ⟨h.expressible p hp, h.readable p hp⟩

theorem Spec.KeyBlock.octets_eq (b : KeyBlock) : b.octets = packetOctets b.head ++ packetsOctets b.rest := by
  simp [KeyBlock.octets, KeyBlock.packets, packetsOctets_cons]

theorem scanLoop_block {I : PacketInfo} {b : KeyBlock} (h : b.WF I) (size fuel : Nat) (s : Bytes) (fmt : Option HeaderFormat)
    (t : OffsetTable) :
    scanLoop I size (fuel + b.packets.length) (b.octets ++ s) fmt t =
      scanLoop I size fuel s (fmt.or (some b.head.fmt)) (t ++ [(shortId b.keyId, size - (b.octets ++ s).length)]) := by
  have h1 := nextPacket_good (h.good b.head (by simp [KeyBlock.packets])) (packetsOctets b.rest ++ s)
  have h3 : isKeyType b.head.type = true := (isKeyType_iff _).2 h.headType
  have h4 : ∃ f, fmt.or (some b.head.fmt) = some f := by cases fmt <;> simp
  obtain ⟨f, hf⟩ := h4
  have hl : b.packets.length = b.rest.length + 1 := by simp [KeyBlock.packets]
  rw [hl, ← Nat.add_assoc, scanLoop, KeyBlock.octets_eq, List.append_assoc, if_neg h1.1, h1.2]
  simp only [except_bind_ok, h3, if_true, h.headId, hf, shortId_eq]
  exact scanLoop_rest _ _ _ _ _ _ (fun q hq => h.good q (by simp [KeyBlock.packets, hq])) (fun q hq => ⟨(h.restType q hq).1, (h.restType q hq).2.1⟩)

/-- Where the keys are: short id and offset of each. -/
def entries : Nat → List KeyBlock → OffsetTable
  | _, [] => []
  | off, b :: bs => (shortId b.keyId, off) :: entries (off + b.octets.length) bs

/-- The header format remembered after scanning. -/
def fmtAfter (fmt : Option HeaderFormat) (bs : List KeyBlock) : Option HeaderFormat := fmt.or (bs.head?.map (fun b => b.head.fmt))

def packetCount (bs : List KeyBlock) : Nat := (bs.map (fun b => b.packets.length)).sum

theorem ringOctets_cons (b : KeyBlock) (bs : List KeyBlock) : ringOctets (b :: bs) = b.octets ++ ringOctets bs := by
  simp [ringOctets]

theorem ringOctets_append (as bs : List KeyBlock) : ringOctets (as ++ bs) = ringOctets as ++ ringOctets bs := by
  simp [ringOctets]

theorem scanLoop_ring {I : PacketInfo} (size : Nat) : ∀ (bs : List KeyBlock) (fuel off : Nat) (fmt : Option HeaderFormat)
    (t : OffsetTable), (∀ b ∈ bs, b.WF I) → size = off + (ringOctets bs).length → packetCount bs ≤ fuel →
      scanLoop I size fuel (ringOctets bs) fmt t = .ok (t ++ entries off bs, fmtAfter fmt bs) := by
  intro bs
  induction bs with
  | nil =>
    intro fuel off fmt t _ _ _
    cases fuel <;> simp [scanLoop, ringOctets, entries, fmtAfter]
  | cons b bs ih =>
    intro fuel off fmt t hw hsz hf
    have hc : packetCount (b :: bs) = b.packets.length + packetCount bs := by simp [packetCount]
    obtain ⟨k, rfl⟩ : ∃ k, fuel = k + b.packets.length := ⟨fuel - b.packets.length, by omega⟩
    rw [ringOctets_cons, scanLoop_block (hw b (by simp))]
    rw [ringOctets_cons, List.length_append] at hsz
    have e1 : size - (b.octets ++ ringOctets bs).length = off := by rw [List.length_append]; omega
    rw [e1, ih k (off + b.octets.length) _ _ (fun c hc => hw c (by simp [hc])) (by omega) (by omega)]
    simp only [entries, List.append_assoc, List.singleton_append]
    cases fmt <;> simp [fmtAfter]

theorem packetsOctets_length {I : PacketInfo} : ∀ {ps : List RawPacket}, (∀ p ∈ ps, Good I p) → ps.length ≤ (packetsOctets ps).length := by
  intro ps
  induction ps with
  | nil => simp
  | cons p ps ih =>
    intro h
    have h1 := (packetOctets_stream (h p (by simp)).1).1
    have h2 := ih (fun q hq => h q (by simp [hq]))
    have h3 := List.length_pos_iff.mpr h1
    rw [packetsOctets_cons, List.length_append, List.length_cons]; omega

theorem packetCount_le {I : PacketInfo} : ∀ {bs : List KeyBlock}, (∀ b ∈ bs, b.WF I) → packetCount bs ≤ (ringOctets bs).length := by
  intro bs
  induction bs with
  | nil => simp [packetCount]
  | cons b bs ih =>
    intro h
    have h1 := packetsOctets_length (h b (by simp)).good
    have h2 := ih (fun q hq => h q (by simp [hq]))
    have hc : packetCount (b :: bs) = b.packets.length + packetCount bs := by simp [packetCount]
    rw [ringOctets_cons, List.length_append, hc]
    have : b.octets = packetsOctets b.packets := rfl
    rw [this]; omega

/-- The object is in step with the file, which holds these keys. -/
structure InSync (I : PacketInfo) (r : Keyring) (bs : List KeyBlock) : Prop where
  wf : ∀ b ∈ bs, b.WF I
  file : r.file = ringOctets bs
  table : r.table = entries 0 bs
  fmt : fmtAfter r.fmt bs = r.fmt

theorem updateTable_ring {I : PacketInfo} {r : Keyring} {bs : List KeyBlock} (hw : ∀ b ∈ bs, b.WF I) (hf : r.file = ringOctets bs) :
    r.updateTable I = .ok { r with table := entries 0 bs, fmt := fmtAfter r.fmt bs } := by
  unfold Keyring.updateTable
  rw [hf, scanLoop_ring _ bs _ 0 _ _ hw (by simp) (packetCount_le hw)]
  rfl

theorem inSync_updated {I : PacketInfo} {r : Keyring} {bs : List KeyBlock} (hw : ∀ b ∈ bs, b.WF I) (hf : r.file = ringOctets bs) :
    InSync I { r with table := entries 0 bs, fmt := fmtAfter r.fmt bs } bs := by
  refine ⟨hw, hf, rfl, ?_⟩
  simp only [fmtAfter]
  cases r.fmt <;> cases bs.head? <;> simp

theorem entries_append (off : Nat) (as bs : List KeyBlock) :
    entries off (as ++ bs) = entries off as ++ entries (off + (ringOctets as).length) bs := by
  induction as generalizing off with
  | nil => simp [entries, ringOctets]
  | cons a as ih =>
    simp only [List.cons_append, entries, ih, ringOctets_cons, List.length_append, Nat.add_assoc]

theorem entries_none {off : Nat} {bs : List KeyBlock} {s : List Char} (h : ∀ b ∈ bs, b.hasShort s = false) :
    tableGet (entries off bs) s = none := by
  have : (entries off bs).reverse.find? (fun e => e.1 == s) = none := by
    rw [List.find?_eq_none]
    intro e he
    rw [List.mem_reverse] at he
    have : ∃ b ∈ bs, e.1 = shortId b.keyId := by
      clear h
      induction bs generalizing off with
      | nil => simp [entries] at he
      | cons b bs ih =>
        simp only [entries, List.mem_cons] at he
        rcases he with rfl | he
        · exact ⟨b, by simp, rfl⟩
        · obtain ⟨c, hc, h⟩ := ih he
          exact ⟨c, by simp [hc], h⟩
    obtain ⟨b, hb, hs⟩ := this
    have := h b hb
    rw [hs]
    simpa [KeyBlock.hasShort] using this
  unfold tableGet
  rw [this]

theorem tableGet_append_left {t u : OffsetTable} {s : List Char} (h : tableGet u s = none) : tableGet (t ++ u) s = tableGet t s := by
  unfold tableGet at *
  rw [List.reverse_append, List.find?_append]
  cases hu : u.reverse.find? (fun e => e.1 == s) with
  | none => simp
  | some e => rw [hu] at h; cases h

theorem entries_get {off : Nat} {as bs : List KeyBlock} {b : KeyBlock} {s : List Char} (hb : b.hasShort s = true)
    (h : ∀ c ∈ bs, c.hasShort s = false) :
    tableGet (entries off (as ++ b :: bs)) s = some (off + (ringOctets as).length) := by
  have e1 : as ++ b :: bs = (as ++ [b]) ++ bs := by simp
  rw [e1, entries_append, tableGet_append_left (entries_none h), entries_append]
  unfold tableGet
  simp only [entries, List.reverse_append, List.reverse_cons, List.reverse_nil, List.nil_append, List.cons_append]
  rw [List.find?_cons_of_pos]
  simpa [KeyBlock.hasShort] using hb

/-- Splitting at the last match. -/
theorem split_last (bs : List KeyBlock) (s : List Char) :
    (lastMatch bs s = none ∧ ∀ c ∈ bs, c.hasShort s = false) ∨
    (∃ b, lastMatch bs s = some b ∧ b.hasShort s = true ∧ bs = beforeLast bs s ++ b :: afterLast bs s ∧
      ∀ c ∈ afterLast bs s, c.hasShort s = false) := by
  have key : ∀ l : List KeyBlock, (l.find? (KeyBlock.hasShort s) = none ∧ ∀ c ∈ l, c.hasShort s = false) ∨
      (∃ b, l.find? (KeyBlock.hasShort s) = some b ∧ b.hasShort s = true ∧
        l = l.takeWhile (fun b => ! b.hasShort s) ++ b :: (l.dropWhile (fun b => ! b.hasShort s)).drop 1 ∧
        ∀ c ∈ l.takeWhile (fun b => ! b.hasShort s), c.hasShort s = false) := by
    intro l
    induction l with
    | nil => left; simp
    | cons a l ih =>
      by_cases ha : a.hasShort s = true
      · right
        refine ⟨a, ?_, ha, ?_, ?_⟩ <;> simp [ha]
      · rw [Bool.not_eq_true] at ha
        rcases ih with ⟨h1, h2⟩ | ⟨b, h1, h2, h3, h4⟩
        · left
          refine ⟨?_, ?_⟩
          · simp [ha, h1]
          · intro c hc
            rcases List.mem_cons.mp hc with rfl | hc
            · exact ha
            · exact h2 c hc
        · right
          refine ⟨b, ?_, h2, ?_, ?_⟩
          · simp [ha, h1]
          · rw [List.takeWhile_cons_of_pos (by simp [ha]), List.dropWhile_cons_of_pos (by simp [ha]), List.cons_append, ← h3]
          · rw [List.takeWhile_cons_of_pos (by simp [ha])]
            intro c hc
            rcases List.mem_cons.mp hc with rfl | hc
            · exact ha
            · exact h4 c hc
  rcases key bs.reverse with ⟨h1, h2⟩ | ⟨b, h1, h2, h3, h4⟩
  · left; exact ⟨h1, fun c hc => h2 c (by simp [hc])⟩
  · right
    refine ⟨b, h1, h2, ?_, ?_⟩
    · have := congrArg List.reverse h3
      rw [List.reverse_reverse] at this
      conv_lhs => rw [this]
      simp [beforeLast, afterLast]
    · intro c hc
      exact h4 c (by simpa [afterLast] using hc)

theorem keyLoop_rest {I : PacketInfo} (fuel : Nat) (s : Bytes) (h0 : RawPacket) :
    ∀ (ps acc : List RawPacket), (∀ p ∈ ps, Good I p) → (∀ p ∈ ps, p.type ≠ 6 ∧ p.type ≠ 5 ∧ p.type ≠ 8) → 
      keyLoop I (fuel + ps.length) (packetsOctets ps ++ s) (h0 :: acc) = keyLoop I fuel s (h0 :: (acc ++ ps)) := by
  intro ps
  induction ps with
  | nil => intros; simp [packetsOctets]
  | cons p ps ih =>
    intro acc hg ht
    have h1 := nextPacket_good (hg p (by simp)) (packetsOctets ps ++ s)
    have h2 := ht p (by simp)
    have h3 : isKeyType p.type = false := by
      rw [Bool.eq_false_iff, Ne, isKeyType_iff]; omega
    rw [packetsOctets_cons, List.length_cons, ← Nat.add_assoc, keyLoop, List.append_assoc, if_neg h1.1, h1.2]
    simp only [except_bind_ok, h3, h2.2.2, Bool.false_eq_true, if_false, and_false]
    rw [List.cons_append, ih _ (fun q hq => hg q (by simp [hq])) (fun q hq => ht q (by simp [hq]))]
    simp

theorem keyLoop_block {I : PacketInfo} {b : KeyBlock} {bs : List KeyBlock} (hb : b.WF I) (hbs : ∀ c ∈ bs, c.WF I) {fuel : Nat}
    (hf : b.packets.length + packetCount bs ≤ fuel) :
    keyLoop I fuel (b.octets ++ ringOctets bs) [] = .ok b.packets := by
  obtain ⟨k, rfl⟩ : ∃ k, fuel = k + b.rest.length + 1 := ⟨fuel - b.packets.length, by simp [KeyBlock.packets] at *; omega⟩
  have h1 := nextPacket_good (hb.good b.head (by simp [KeyBlock.packets])) (packetsOctets b.rest ++ ringOctets bs)
  have ht := hb.headType
  have h8 : b.head.type ≠ 8 := by omega
  rw [keyLoop, KeyBlock.octets_eq, List.append_assoc, if_neg h1.1, h1.2]
  simp only [except_bind_ok, h8, if_false, ne_eq, not_true_eq_false, false_and, List.nil_append]
  rw [keyLoop_rest _ _ _ _ _ (fun q hq => hb.good q (by simp [KeyBlock.packets, hq])) hb.restType]
  cases bs with
  | nil => cases k <;> simp [keyLoop, ringOctets, KeyBlock.packets]
  | cons c cs =>
    have hc := hbs c (by simp)
    have h2 := nextPacket_good (hc.good c.head (by simp [KeyBlock.packets])) (packetsOctets c.rest ++ ringOctets cs)
    have hk : ∃ j, k = j + 1 := ⟨k - 1, by simp [KeyBlock.packets, packetCount] at hf; omega⟩
    obtain ⟨j, rfl⟩ := hk
    have h8' : c.head.type ≠ 8 := by have := hc.headType; omega
    rw [keyLoop, ringOctets_cons, KeyBlock.octets_eq, List.append_assoc, if_neg h2.1, h2.2]
    simp only [except_bind_ok, h8', if_false, (isKeyType_iff _).2 hc.headType]
    simp [KeyBlock.packets]

theorem tailLoop_packets {I : PacketInfo} : ∀ (ps : List RawPacket) (fuel : Nat) (fmt : Option HeaderFormat),
    (∀ p ∈ ps, Good I p) → ps.length ≤ fuel →
      tailLoop I fuel (packetsOctets ps) fmt = .ok (fmt.or (ps.head?.map RawPacket.fmt), []) := by
  intro ps
  induction ps with
  | nil => intro fuel fmt _ _; cases fuel <;> simp [tailLoop, packetsOctets]
  | cons p ps ih =>
    intro fuel fmt hg hf
    obtain ⟨k, rfl⟩ : ∃ k, fuel = k + 1 := ⟨fuel - 1, by simp at hf; omega⟩
    have h1 := nextPacket_good (hg p (by simp)) (packetsOctets ps)
    rw [packetsOctets_cons, tailLoop, if_neg h1.1, h1.2]
    simp only [except_bind_ok]
    rw [ih k _ (fun q hq => hg q (by simp [hq])) (by simpa using hf)]
    cases fmt <;> simp

theorem ringOctets_packets (bs : List KeyBlock) : ringOctets bs = packetsOctets (bs.flatMap KeyBlock.packets) := by
  induction bs with
  | nil => simp [ringOctets, packetsOctets]
  | cons b bs ih => rw [ringOctets_cons, ih]; simp [packetsOctets, KeyBlock.octets]

theorem tailLoop_ring {I : PacketInfo} {b : KeyBlock} {bs : List KeyBlock} (hb : ∀ c ∈ b :: bs, c.WF I) {fuel : Nat}
    (hf : packetCount (b :: bs) ≤ fuel) :
    tailLoop I fuel (ringOctets (b :: bs)) none = .ok (some b.head.fmt, []) := by
  rw [ringOctets_packets, tailLoop_packets]
  · simp [KeyBlock.packets]
  · intro p hp
    obtain ⟨c, hc, hp⟩ := List.mem_flatMap.mp hp
    exact (hb c hc).good p hp
  · rw [List.length_flatMap]; exact hf

theorem inSync_get {I : PacketInfo} {r : Keyring} {bs : List KeyBlock} (h : InSync I r bs) (fp : List Char) :
    r.get I fp = match lastMatch bs (shortId fp) with
      | none => .error .keyError
      | some b => .ok b.packets := by
  unfold Keyring.get
  rw [h.table, shortId_eq]
  rcases split_last bs (shortId fp) with ⟨h1, h2⟩ | ⟨b, h1, h2, h3, h4⟩
  · rw [entries_none h2, h1]
  · rw [h1]
    have hwb : b.WF I := h.wf b (by rw [h3]; simp)
    have hwa : ∀ c ∈ afterLast bs (shortId fp), c.WF I := fun c hc => h.wf c (by rw [h3]; simp [hc])
    have hg := entries_get (off := 0) (as := beforeLast bs (shortId fp)) h2 h4
    rw [← h3] at hg
    rw [hg]
    simp only [Nat.zero_add]
    unfold Keyring.getAt
    have hfile : r.file = ringOctets (beforeLast bs (shortId fp)) ++ (b.octets ++ ringOctets (afterLast bs (shortId fp))) := by
      rw [h.file]
      conv_lhs => rw [h3]
      rw [ringOctets_append, ringOctets_cons]
    have hc : b.packets.length + packetCount (afterLast bs (shortId fp)) ≤ r.file.length := by
      have h5 := packetsOctets_length hwb.good
      have h6 := packetCount_le hwa
      have : b.octets = packetsOctets b.packets := rfl
      rw [hfile, List.length_append, List.length_append, this]; omega
    rw [show r.file.drop (ringOctets (beforeLast bs (shortId fp))).length = b.octets ++ ringOctets (afterLast bs (shortId fp)) by
      rw [hfile]; simp]
    rw [keyLoop_block hwb hwa hc]
    simp only [except_bind_ok, KeyBlock.packets, (isKeyType_iff _).2 hwb.headType, if_true, except_pure]

theorem entries_short {off : Nat} {bs : List KeyBlock} {e : List Char × Nat} (h : e ∈ entries off bs) : e.1.length ≤ 8 := by
  induction bs generalizing off with
  | nil => simp [entries] at h
  | cons b bs ih =>
    simp only [entries, List.mem_cons] at h
    rcases h with rfl | h
    · simp [shortId]; omega
    · exact ih h

theorem tableGet_long {off : Nat} {bs : List KeyBlock} {fp : List Char} (h : 8 < fp.length) : tableGet (entries off bs) fp = none := by
  unfold tableGet
  have : (entries off bs).reverse.find? (fun e => e.1 == fp) = none := by
    rw [List.find?_eq_none]
    intro e he
    rw [List.mem_reverse] at he
    have := entries_short he
    simp only [beq_iff_eq]
    rintro rfl
    omega
  rw [this]

theorem write_inSync {I : PacketInfo} {r : Keyring} {bs : List KeyBlock} (hw : ∀ b ∈ bs, b.WF I) {data : Bytes}
    (hd : data = ringOctets bs) :
    ∃ r', r.write I data = (.ok (), r') ∧ InSync I r' bs ∧ r'.fmt = fmtAfter r.fmt bs ∧ r'.readOnly = r.readOnly := by
  subst hd
  unfold Keyring.write
  have h1 := updateTable_ring (r := { r with file := ringOctets bs }) hw rfl
  have h2 := inSync_updated (r := { r with file := ringOctets bs }) hw rfl
  simp only [h1]
  exact ⟨_, rfl, h2, rfl, rfl⟩

theorem step_inSync {I : PacketInfo} {r : Keyring} {bs : List KeyBlock} (h : InSync I r bs) (hro : r.readOnly = false) (op : RingOp)
    (ho : op.WF I) :
    ∃ bs' r', ListRing.step ⟨bs, r.fmt⟩ op = ((ringStep I r op).1, ⟨bs', r'.fmt⟩) ∧ (ringStep I r op).2 = r' ∧
      InSync I r' bs' ∧ r'.readOnly = false := by
  cases op with
  | add k =>
    have ho : k.WF I := ho
    have hw : ∀ b ∈ bs ++ [k.block r.fmt], b.WF I := by
      intro b hb
      rcases List.mem_append.mp hb with hb | hb
      · exact h.wf b hb
      · rw [List.mem_singleton] at hb; subst hb; exact ho.wf _
    obtain ⟨r', h1, h2, h3, h4⟩ := write_inSync (r := r) hw (data := r.file ++ (k.block r.fmt).octets) (by
      rw [h.file, ringOctets_append]; simp [ringOctets])
    refine ⟨bs ++ [k.block r.fmt], r', ?_, ?_, h2, by rw [h4, hro]⟩
    · simp only [ringStep, Keyring.add, hro, Bool.false_eq_true, if_false, SpecKey.toNew, h.table, tableGet_long ho.long,
        Option.isSome_none, h1, ListRing.step, ListRing.settle, h3, fmtAfter]
    · simp only [ringStep, Keyring.add, hro, Bool.false_eq_true, if_false, SpecKey.toNew, h.table, tableGet_long ho.long,
        Option.isSome_none, h1]
  | delete fp =>
    simp only [ringStep, Keyring.delete, hro, Bool.false_eq_true, if_false, h.table, shortId_eq, ListRing.step]
    rcases split_last bs (shortId fp) with ⟨h1, h2⟩ | ⟨b, h1, h2, h3, h4⟩
    · rw [entries_none h2, h1]
      exact ⟨bs, r, rfl, rfl, h, hro⟩
    · rw [h1]
      have hg := entries_get (off := 0) (as := beforeLast bs (shortId fp)) h2 h4
      rw [← h3] at hg
      rw [hg]
      simp only [Nat.zero_add]
      have hfile : r.file = ringOctets (beforeLast bs (shortId fp)) ++ ringOctets (b :: afterLast bs (shortId fp)) := by
        rw [h.file]
        conv_lhs => rw [h3]
        rw [ringOctets_append]
      have hwt : ∀ c ∈ b :: afterLast bs (shortId fp), c.WF I := fun c hc => h.wf c (by rw [h3]; exact List.mem_append_right _ hc)
      have hc : packetCount (b :: afterLast bs (shortId fp)) ≤ r.file.length := by
        have := packetCount_le hwt
        rw [hfile, List.length_append]; omega
      have hne : ringOctets (b :: afterLast bs (shortId fp)) ≠ [] := by
        have := packetCount_le hwt
        intro h0
        rw [h0] at this
        simp [packetCount, KeyBlock.packets] at this
      have hdrop : r.file.drop (ringOctets (beforeLast bs (shortId fp))).length = ringOctets (b :: afterLast bs (shortId fp)) := by
        rw [hfile]; simp
      have htake : r.file.take (ringOctets (beforeLast bs (shortId fp))).length = ringOctets (beforeLast bs (shortId fp)) := by
        rw [hfile]; simp
      rw [hdrop, tailLoop_ring hwt hc, htake]
      simp only [except_bind_ok, hne, if_false, except_pure, List.append_nil]
      obtain ⟨r', h5, h6, h7, h8⟩ := write_inSync (I := I) (r := r) (bs := beforeLast bs (shortId fp))
        (fun c hc => h.wf c (by rw [h3]; exact List.mem_append_left _ hc)) rfl
      refine ⟨_, r', ?_, ?_, h6, by rw [h8, hro]⟩
      · simp only [h5, ListRing.settle, h7, fmtAfter]
      · simp only [h5]
  | update k =>
    have ho : k.WF I := ho
    simp only [ringStep, Keyring.update, hro, Bool.false_eq_true, if_false, h.table, shortId_eq, ListRing.step, SpecKey.toNew]
    rcases split_last bs (shortId k.fingerprint) with ⟨h1, h2⟩ | ⟨b, h1, h2, h3, h4⟩
    · rw [entries_none h2, h1]
      exact ⟨bs, r, rfl, rfl, h, hro⟩
    · rw [h1]
      set s := shortId k.fingerprint with hs
      have hg := entries_get (off := 0) (as := beforeLast bs s) h2 h4
      rw [← h3] at hg
      rw [hg]
      simp only [Nat.zero_add]
      have hfile : r.file = ringOctets (beforeLast bs s) ++ ringOctets (b :: afterLast bs s) := by
        rw [h.file]
        conv_lhs => rw [h3]
        rw [ringOctets_append]
      have hwt : ∀ c ∈ b :: afterLast bs s, c.WF I := fun c hc => h.wf c (by rw [h3]; exact List.mem_append_right _ hc)
      have hc : packetCount (b :: afterLast bs s) ≤ r.file.length := by
        have := packetCount_le hwt
        rw [hfile, List.length_append]; omega
      have hne : ringOctets (b :: afterLast bs s) ≠ [] := by
        have := packetCount_le hwt
        intro h0
        rw [h0] at this
        simp [packetCount, KeyBlock.packets] at this
      have hdrop : r.file.drop (ringOctets (beforeLast bs s)).length = ringOctets (b :: afterLast bs s) := by
        rw [hfile]; simp
      have htake : r.file.take (ringOctets (beforeLast bs s)).length = ringOctets (beforeLast bs s) := by
        rw [hfile]; simp
      rw [hdrop, tailLoop_ring hwt hc, htake]
      simp only [except_bind_ok, hne, if_false, except_pure, List.append_nil]
      have hw : ∀ c ∈ beforeLast bs s ++ [k.block (some b.head.fmt)], c.WF I := by
        intro c hc
        rcases List.mem_append.mp hc with hc | hc
        · exact h.wf c (by rw [h3]; exact List.mem_append_left _ hc)
        · rw [List.mem_singleton] at hc; subst hc; exact ho.wf _
      obtain ⟨r', h5, h6, h7, h8⟩ := write_inSync (I := I) (r := r) hw
        (data := ringOctets (beforeLast bs s) ++ (k.block (some b.head.fmt)).octets) (by rw [ringOctets_append]; simp [ringOctets])
      refine ⟨_, r', ?_, ?_, h6, by rw [h8, hro]⟩
      · simp only [h5, ListRing.settle, h7, fmtAfter]
      · simp only [h5]

theorem run_inSync {I : PacketInfo} (ops : List RingOp) : ∀ {r : Keyring} {bs : List KeyBlock}, InSync I r bs → r.readOnly = false →
    (∀ op ∈ ops, op.WF I) → (ringRun I r ops).1 = (ListRing.run ⟨bs, r.fmt⟩ ops).1 ∧
      InSync I (ringRun I r ops).2 (ListRing.run ⟨bs, r.fmt⟩ ops).2.keys ∧ (ringRun I r ops).2.readOnly = false := by
  induction ops with
  | nil => intro r bs h hro _; exact ⟨rfl, h, hro⟩
  | cons op ops ih =>
    intro r bs h hro ho
    obtain ⟨bs', r', h1, h2, h3, h4⟩ := step_inSync h hro op (ho op (by simp))
    have := ih h3 h4 (fun o hm => ho o (by simp [hm]))
    simp only [ringRun, ListRing.run, h1, h2]
    exact ⟨by rw [this.1], this.2⟩

theorem open_inSync {I : PacketInfo} {bs : List KeyBlock} (hw : ∀ b ∈ bs, b.WF I) (ro : Bool) :
    ∃ r, Keyring.open I (ringOctets bs) ro = .ok r ∧ InSync I r bs ∧ r.fmt = bs.head?.map (fun b => b.head.fmt) ∧ r.readOnly = ro := by
  unfold Keyring.open
  rw [updateTable_ring (r := ⟨ringOctets bs, [], none, ro⟩) hw rfl]
  refine ⟨_, rfl, inSync_updated (r := ⟨ringOctets bs, [], none, ro⟩) hw rfl, ?_, rfl⟩
  simp [fmtAfter]

end Pgp
