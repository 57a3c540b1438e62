import Verif.Spec.Crash
import Verif.Lemmas.Keyring
import Verif.Props.Keyring
import Verif.Props.Lengths
import Mathlib.Data.List.Forall2
/-
Property theorems C63 (crashes while a keyring is written) and C114 (several keyring objects on one file).
-/
namespace Pgp.Props
open Spec

/-! ## C63 -/

/-- A concrete interpretation: every packet parses; the key id is read off the content. -/
private def exI : PacketInfo := ⟨fun _ => .ok (), fun p => .ok (p.content.map (fun b => Char.ofNat b.toNat))⟩

private def exBlock (c : UInt8) : KeyBlock :=
  ⟨⟨.old, 6, List.replicate 16 c⟩, [⟨.old, 13, [65, 66]⟩, ⟨.new, 2, [4]⟩], List.replicate 16 (Char.ofNat c.toNat)⟩

private theorem exBlock_wf (c : UInt8) : (exBlock c).WF exI := by
  refine ⟨Or.inl rfl, ?_, ?_, ?_, fun _ _ => rfl⟩
  · simp [exI, exBlock]
  · intro p hp
    simp only [exBlock, List.mem_cons, List.not_mem_nil, or_false] at hp
    rcases hp with rfl | rfl <;> decide
  · intro p hp
    simp only [exBlock, KeyBlock.packets, List.mem_cons, List.not_mem_nil, or_false] at hp
    rcases hp with rfl | rfl | rfl
    · exact Or.inr ⟨rfl, (by decide : (6 : Nat) < 16), by simp⟩
    · exact Or.inr ⟨rfl, by decide, by decide⟩
    · exact Or.inl ⟨rfl, by decide, by decide, by decide⟩

/-- Three keys in a file, and a key with the id of the middle one. -/
private def exNew : SpecKey := ⟨List.replicate 40 'B', fun _ => exBlock 66⟩

private theorem exRing_wf : ∀ b ∈ [exBlock 65] ++ exBlock 66 :: [exBlock 67], b.WF exI := by
  intro b hb
  simp only [List.cons_append, List.nil_append, List.mem_cons, List.not_mem_nil, or_false] at hb
  rcases hb with rfl | rfl | rfl <;> exact exBlock_wf _

private theorem exRing_wf2 : ∀ b ∈ [exBlock 65] ++ [exBlock 66], b.WF exI := fun b hb =>
  exRing_wf b (by simp only [List.cons_append, List.nil_append, List.mem_cons, List.not_mem_nil, or_false] at hb ⊢; tauto)

private theorem exNew_wf : exNew.WF exI :=
  ⟨fun _ => exBlock_wf _, fun _ => show shortId (exBlock 66).keyId = shortId (List.replicate 40 'B') by decide, by decide⟩

/-- The calls are those of the operations modelled for C33: the calls, completed, leave the file of the model. -/
theorem ringStep_data (I : PacketInfo) (r : Keyring) (op : RingOp) :
    ∃ d : Py Bytes, ringCalls I r op = writeCalls d ∧ ringStep I r op = match d with
      | .error e => (.error e, r)
      | .ok d => r.write I d := by
  cases op with
  | add k =>
    refine ⟨r.addData k.toNew, rfl, ?_⟩
    show r.add I k.toNew = _
    unfold Keyring.add Keyring.addData
    split
    · rfl
    · split
      · rfl
      · cases k.toNew.bytes r.fmt <;> rfl
  | delete fp =>
    refine ⟨r.deleteData I fp, rfl, ?_⟩
    show r.delete I fp = _
    unfold Keyring.delete Keyring.deleteData
    split
    · rfl
    · cases tableGet r.table (lastN fp 8) with
      | none => rfl
      | some off => rfl
  | update k =>
    refine ⟨r.updateData I k.toNew, rfl, ?_⟩
    show r.update I k.toNew = _
    unfold Keyring.update Keyring.updateData
    split
    · rfl
    · cases tableGet r.table (lastN k.toNew.fingerprint 8) with
      | none => rfl
      | some off => rfl

theorem write_file (I : PacketInfo) (r : Keyring) (d : Bytes) : (r.write I d).2.file = d := by
  unfold Keyring.write
  simp only
  cases h : Keyring.updateTable I { r with file := d } with
  | error e => rfl
  | ok k =>
    unfold Keyring.updateTable at h
    obtain ⟨⟨t, f⟩, _, h⟩ := except_bind_eq_ok.mp h
    injection h with h
    subst h
    rfl

theorem found_nil {f g : Bytes} : FoundAfter f [] g ↔ g = f := by
  constructor
  · intro h
    cases h
    rfl
  · rintro rfl; exact .here

theorem found_write {f d g : Bytes} : FoundAfter f (writeCalls (.ok d)) g ↔ g = f ∨ g <+: d := by
  unfold writeCalls
  constructor
  · intro h
    cases h with
    | here => exact Or.inl rfl
    | later h =>
      right
      cases h with
      | here => exact List.nil_prefix
      | torn n => exact List.take_prefix n d
      | later h => rw [found_nil.mp h]; exact List.prefix_refl d
  · rintro (rfl | h)
    · exact .here
    · rw [List.prefix_iff_eq_take.mp h]
      exact .later (.torn g.length)

/-- C63: the calls of an operation, all completed, leave the content that the operation leaves. -/
theorem C63_calls_complete (I : PacketInfo) (r : Keyring) (op : RingOp) : (ringCalls I r op).foldl FileCall.run r.file = (ringStep I r op).2.file := by
  obtain ⟨d, h1, h2⟩ := ringStep_data I r op
  rw [h1, h2]
  cases d with
  | error e => rfl
  | ok d => rw [write_file]; rfl

theorem crash_states {I : PacketInfo} {r : Keyring} {bs : List KeyBlock} (h : InSync I r bs) (hro : r.readOnly = false) (op : RingOp) (ho : op.WF I) (g : Bytes) :
    FoundAfter r.file (ringCalls I r op) g ↔
      g = ringOctets bs ∨ ((ListRing.step ⟨bs, r.fmt⟩ op).1 = .ok () ∧ g <+: ringOctets (ListRing.step ⟨bs, r.fmt⟩ op).2.keys) := by
  obtain ⟨d, h1, h2⟩ := ringStep_data I r op
  obtain ⟨bs', r', h3, h4, h5, h6⟩ := step_inSync h hro op ho
  rw [h1, h3, ← h.file]
  cases d with
  | error e =>
    rw [h2, show writeCalls (.error e) = [] from rfl, found_nil]
    constructor
    · exact Or.inl
    · rintro (hg | ⟨hg, -⟩)
      · exact hg
      · cases hg
  | ok d =>
    have hd : d = ringOctets bs' := by
      rw [← h5.file, ← h4, h2, write_file]
    have hok : (r.write I d).1 = .ok () := by
      obtain ⟨r2, e, _⟩ := write_inSync (r := r) h5.wf hd
      rw [e]
    rw [h2, found_write, hd]
    constructor
    · rintro (hg | hg)
      · exact Or.inl hg
      · exact Or.inr ⟨by rw [← hd]; exact hok, hg⟩
    · rintro (hg | ⟨-, hg⟩)
      · exact Or.inl hg
      · exact Or.inr hg

theorem run_ring {I : PacketInfo} (ops : List RingOp) : ∀ {r : Keyring} {bs : List KeyBlock}, InSync I r bs → r.readOnly = false → (∀ op ∈ ops, op.WF I) →
    ∃ bs', (ListRing.run ⟨bs, r.fmt⟩ ops).2 = ⟨bs', (ringRun I r ops).2.fmt⟩ ∧ InSync I (ringRun I r ops).2 bs' ∧ (ringRun I r ops).2.readOnly = false := by
  induction ops with
  | nil => intro r bs h hro _; exact ⟨bs, rfl, h, hro⟩
  | cons op ops ih =>
    intro r bs h hro ho
    obtain ⟨bs', r', h1, h2, h3, h4⟩ := step_inSync h hro op (ho op (by simp))
    have := ih h3 h4 (fun o hm => ho o (by simp [hm]))
    simp only [ringRun, ListRing.run, h1, h2]
    exact this

/-- C63, what holds: after any history of operations on a keyring, if the process dies during the next one, the file found is the old one or a beginning of
the new one, and each of these is possible; an operation that raises, like a look-up, leaves the file alone. -/
theorem C63_crash_states_partial (I : PacketInfo) (bs : List KeyBlock) (hw : ∀ b ∈ bs, b.WF I) (ops : List RingOp) (ho : ∀ op ∈ ops, op.WF I) (op : RingOp) (hop : op.WF I) :
    ∃ r, Keyring.open I (ringOctets bs) false = .ok r ∧
      let before := (ListRing.run (ListRing.settle ⟨bs, none⟩) ops).2
      let now := (ringRun I r ops).2
      ∀ g, FoundAfter now.file (ringCalls I now op) g ↔
        g = ringOctets before.keys ∨ ((before.step op).1 = .ok () ∧ g <+: ringOctets (before.step op).2.keys) := by
  obtain ⟨r, h1, h2, h3, h4⟩ := open_inSync hw false
  refine ⟨r, h1, ?_⟩
  have e : ListRing.settle ⟨bs, none⟩ = ⟨bs, r.fmt⟩ := by simp [ListRing.settle, h3]
  rw [e]
  obtain ⟨bs', h5, h6, h7⟩ := run_ring ops h2 h4 ho
  intro before now g
  have hb : before = ⟨bs', now.fmt⟩ := h5
  rw [hb]
  exact crash_states h6 h7 op hop g

example := C63_crash_states_partial exI _ exRing_wf [.add exNew, .delete (List.replicate 40 'A')] (by
  intro op h
  simp only [List.mem_cons, List.not_mem_nil, or_false] at h
  rcases h with rfl | rfl
  · exact exNew_wf
  · exact trivial) (.update exNew) exNew_wf

/-- C63 refuted: every operation that changes the keyring has a crash point at which the file is empty: every key is gone, also those that the operation is not about. -/
theorem C63_crash_loses_keys_refuted (I : PacketInfo) (bs : List KeyBlock) (hw : ∀ b ∈ bs, b.WF I) (op : RingOp) (hop : op.WF I) (r : Keyring)
    (hr : Keyring.open I (ringOctets bs) false = .ok r) (hok : (ringStep I r op).1 = .ok ()) :
    ∃ g r', FoundAfter (ringOctets bs) (ringCalls I r op) g ∧ Keyring.open I g false = .ok r' ∧ ∀ fp, r'.get I fp = .error .keyError := by
  obtain ⟨r0, h1, h2, h3, h4⟩ := open_inSync hw false
  rw [hr] at h1
  cases h1
  obtain ⟨r', h5, h6⟩ := C33_open_and_get I [] (by simp) false
  refine ⟨[], r', ?_, h5, fun fp => by rw [h6 fp]; rfl⟩
  obtain ⟨bs', r1, h7, h8, h9, h10⟩ := step_inSync h2 h4 op hop
  rw [← h2.file, crash_states h2 h4 op hop]
  exact Or.inr ⟨by rw [h7]; exact hok, List.nil_prefix⟩

/-- C63 refuted: likewise there is a crash point after which the file opens without complaint but has only some of the keys, for every number of them. -/
theorem C63_some_keys_lost_refuted (I : PacketInfo) (bs : List KeyBlock) (hw : ∀ b ∈ bs, b.WF I) (k : SpecKey) (hk : k.WF I) (r : Keyring)
    (hr : Keyring.open I (ringOctets bs) false = .ok r) (kept lost : List KeyBlock) (hs : bs = kept ++ lost) :
    ∃ g r', FoundAfter (ringOctets bs) (ringCalls I r (.add k)) g ∧ Keyring.open I g false = .ok r' ∧
      ∀ fp, r'.get I fp = match lastMatch kept (shortId fp) with
        | none => .error .keyError
        | some b => .ok b.packets := by
  obtain ⟨r0, h1, h2, h3, h4⟩ := open_inSync hw false
  rw [hr] at h1
  cases h1
  obtain ⟨r', h5, h6⟩ := C33_open_and_get I kept (fun b hb => hw b (by rw [hs]; simp [hb])) false
  refine ⟨ringOctets kept, r', ?_, h5, h6⟩
  rw [← h2.file, crash_states h2 h4 (.add k) hk]
  refine Or.inr ⟨rfl, ?_⟩
  show ringOctets kept <+: ringOctets (bs ++ [k.block r.fmt])
  rw [hs, ringOctets_append, ringOctets_append, List.append_assoc]
  exact List.prefix_append _ _

example (r : Keyring) (hr : Keyring.open exI (ringOctets ([exBlock 65] ++ exBlock 66 :: [exBlock 67])) false = .ok r) :=
  C63_crash_loses_keys_refuted exI _ exRing_wf (.add exNew) exNew_wf r hr (C33_add_appends exI _ exRing_wf exNew exNew_wf r hr).1

example (r : Keyring) (hr : Keyring.open exI (ringOctets ([exBlock 65] ++ exBlock 66 :: [exBlock 67])) false = .ok r) :=
  C63_some_keys_lost_refuted exI _ exRing_wf exNew exNew_wf r hr [exBlock 65, exBlock 66] [exBlock 67] rfl

/-- A packet whose content was written only in part is read as a packet with that content. -/
theorem torn_packet {p : RawPacket} (h : Expressible p) (n : Nat) (hn : n ≤ p.content.length) :
    ∃ w, packetOctets p = w ++ p.content.drop n ∧ w ≠ [] ∧ packetFromStream w = .ok ({ p with content := p.content.take n }, []) := by
  rcases h with ⟨hf, ht, hl1, hl2⟩ | ⟨hf, ht, hl⟩
  · obtain ⟨l, hd, hs⟩ := serialize_new hf ht (by intro hc; rw [hc] at hl1; simp at hl1) hl2 0
    refine ⟨UInt8.ofNat (0x80 + (0x40 + p.type)) :: (l ++ p.content.take n), ?_, by simp, ?_⟩
    · unfold packetOctets; rw [hs]; simp
    · have hlen : newPacketLengthFromStream (l ++ p.content.take n) = .ok (p.content.length, false, p.content.take n) := by
        have h0 := newPacketLength_definite (data := l ++ p.content.take n) (e := l) (s := p.content.take n) (off := 0) (by simp) hd
        have := (C08_new_length_stream_agrees (l ++ p.content.take n) 0 p.content.length false (p.content.take n)).mpr ⟨_, h0, by simp⟩
        simpa using this
      have hb : (UInt8.ofNat (0x80 + (0x40 + p.type))).toNat = 0x80 + (0x40 + p.type) := toNat_ofNat_lt (by omega)
      have h40 : ∀ t : Fin 64, (0x80 + (0x40 + t.val)) &&& 0x40 ≠ 0 ∧ (0x80 + (0x40 + t.val)) &&& 0x3f = t.val := by decide
      obtain ⟨h1, h2⟩ := h40 ⟨p.type, ht⟩
      simp only at h1 h2
      unfold packetFromStream streamLoop
      simp only [readOrd, except_bind_ok, Bool.false_eq_true, if_false, hb, h1, h2, ne_eq, not_false_eq_true, if_true, hlen, List.nil_append]
      rw [List.take_of_length_le (by simp), List.drop_of_length_le (by simp), ← hf]
  · obtain ⟨lt, l, hlt, hd, hs⟩ := serialize_old hf ht hl 1
    have hsh : p.type <<< 2 = p.type * 4 := Nat.shiftLeft_eq _ 2
    refine ⟨UInt8.ofNat (0x80 + (p.type <<< 2) + lt) :: (l ++ p.content.take n), ?_, by simp, ?_⟩
    · unfold packetOctets; rw [hs]; simp
    · have hb : (UInt8.ofNat (0x80 + (p.type <<< 2) + lt)).toNat = 0x80 + (p.type <<< 2) + lt := toNat_ofNat_lt (by omega)
      have hlen : oldPacketLengthFromStream (UInt8.ofNat (0x80 + (p.type <<< 2) + lt) :: (l ++ p.content.take n)) = .ok (p.content.length, p.content.take n) := by
        have h0 : oldPacketLength (UInt8.ofNat (0x80 + (p.type <<< 2) + lt) :: (l ++ p.content.take n)) 0 = .ok (1 + l.length, p.content.length) := by
          have := oldPacketLength_definite (data := UInt8.ofNat (0x80 + (p.type <<< 2) + lt) :: (l ++ p.content.take n)) (e := l) (s := p.content.take n) (off := 0)
            (tag := UInt8.ofNat (0x80 + (p.type <<< 2) + lt)) rfl (n := p.content.length) (by rw [hb, show (0x80 + (p.type <<< 2) + lt) % 4 = lt by omega]; exact hd)
          rw [this]
        have := ((C08_old_length_stream_agrees _ 0 p.content.length (p.content.take n) (l ++ p.content.take n) (UInt8.ofNat (0x80 + (p.type <<< 2) + lt)) rfl).1
          (by rw [hb]; omega)).mpr ⟨_, h0, by rw [Nat.add_comm]; simp⟩
        simpa using this
      have h40 : ∀ t : Fin 16, ∀ l : Fin 3, (0x80 + (t.val <<< 2) + l.val) &&& 0x40 = 0 ∧ ((0x80 + (t.val <<< 2) + l.val) &&& 0x3f) >>> 2 = t.val := by decide
      obtain ⟨h1, h2⟩ := h40 ⟨p.type, ht⟩ ⟨lt, hlt⟩
      simp only at h1 h2
      unfold packetFromStream streamLoop
      simp only [readOrd, except_bind_ok, Bool.false_eq_true, if_false, hb, h1, h2, ne_eq, not_true_eq_false, hlen, List.nil_append]
      rw [List.take_of_length_le (by simp), List.drop_of_length_le (by simp), ← hf]

theorem scan_suffix {I : PacketInfo} (size : Nat) : ∀ (bs : List KeyBlock) (fuel off : Nat) (s : Bytes) (fmt : Option HeaderFormat) (t : OffsetTable), (∀ b ∈ bs, b.WF I) →
    size = off + (ringOctets bs ++ s).length →
      scanLoop I size (fuel + packetCount bs) (ringOctets bs ++ s) fmt t = scanLoop I size fuel s (fmtAfter fmt bs) (t ++ entries off bs) := by
  intro bs
  induction bs with
  | nil => intro fuel off s fmt t _ _; simp [packetCount, ringOctets, fmtAfter, entries]
  | cons b bs ih =>
    intro fuel off s fmt t hw hsz
    have hc : packetCount (b :: bs) = b.packets.length + packetCount bs := by simp [packetCount]
    rw [ringOctets_cons, List.append_assoc] at hsz ⊢
    rw [hc, show fuel + (b.packets.length + packetCount bs) = fuel + packetCount bs + b.packets.length by omega, scanLoop_block (hw b (by simp))]
    have e1 : size - (b.octets ++ (ringOctets bs ++ s)).length = off := by omega
    rw [e1, ih fuel (off + b.octets.length) s _ _ (fun c hc => hw c (by simp [hc])) (by rw [List.length_append] at hsz; omega)]
    simp only [entries, List.append_assoc, List.singleton_append]
    cases fmt <;> simp [fmtAfter]

/-- C63 refuted: a crash while a key is added can leave any of its packets (the primary key packet excepted) with only the beginning of its content, as long as that still is a
packet of its kind: for a user id, any beginning. The file opens without complaint, and the key is found with the changed packet in place of that one and those after it. -/
theorem C63_torn_packet_refuted (I : PacketInfo) (bs : List KeyBlock) (hw : ∀ b ∈ bs, b.WF I) (k : SpecKey) (hk : k.WF I) (r : Keyring)
    (hr : Keyring.open I (ringOctets bs) false = .ok r) (pre post : List RawPacket) (p : RawPacket) (hp : (k.block r.fmt).rest = pre ++ p :: post)
    (n : Nat) (hn : n ≤ p.content.length) (hc : I.check { p with content := p.content.take n } = .ok ()) :
    ∃ g r', FoundAfter (ringOctets bs) (ringCalls I r (.add k)) g ∧ Keyring.open I g false = .ok r' ∧
      ∀ fp, shortId fp = shortId k.fingerprint → r'.get I fp = .ok ((k.block r.fmt).head :: (pre ++ [{ p with content := p.content.take n }])) := by
  obtain ⟨r0, h1, h2, h3, h4⟩ := open_inSync hw false
  rw [hr] at h1
  cases h1
  have hwb := hk.wf r.fmt
  have hsh := hk.short r.fmt
  have hcs := crash_states h2 h4 (.add k) hk
  have hkeys : (ListRing.step ⟨bs, r.fmt⟩ (.add k)).2.keys = bs ++ [k.block r.fmt] := rfl
  generalize k.block r.fmt = b at *
  have hin : ∀ q ∈ pre, q ∈ b.rest := fun q hq => by rw [hp]; simp [hq]
  have hgood : ∀ q ∈ pre, Good I q := fun q hq => hwb.good q (by simp [KeyBlock.packets, hin q hq])
  have htp := hwb.restType p (by rw [hp]; simp)
  obtain ⟨w, hw1, hw2, hw3⟩ := torn_packet (hwb.expressible p (by simp [KeyBlock.packets, hp])) n hn
  have hnext : nextPacket I w = .ok ({ p with content := p.content.take n }, []) := by
    unfold nextPacket
    rw [hw3]
    simp [hc]
  have hkt : isKeyType p.type = false := by rw [Bool.eq_false_iff, Ne, isKeyType_iff]; omega
  have hhead := nextPacket_good (hwb.good b.head (by simp [KeyBlock.packets])) (packetsOctets pre ++ w)
  have hkh : isKeyType b.head.type = true := (isKeyType_iff _).2 hwb.headType
  have hlen : pre.length + 2 ≤ (packetOctets b.head ++ (packetsOctets pre ++ w)).length := by
    have a1 := packetsOctets_length hgood
    have a2 := List.length_pos_iff.mpr (packetOctets_stream (hwb.expressible b.head (by simp [KeyBlock.packets]))).1
    have a3 := List.length_pos_iff.mpr hw2
    simp only [List.length_append]; omega
  have hpc := packetCount_le hw
  have scanW : ∀ size fuel f t, scanLoop I size (fuel + 1) w f t = .ok (t, f.or (some p.fmt)) := by
    intro size fuel f t
    rw [scanLoop, if_neg hw2, hnext]
    simp only [except_bind_ok, hkt, Bool.false_eq_true, if_false]
    cases fuel <;> simp [scanLoop]
  have keyW : ∀ fuel h0 acc, keyLoop I (fuel + 1) w (h0 :: acc) = .ok (h0 :: (acc ++ [{ p with content := p.content.take n }])) := by
    intro fuel h0 acc
    rw [keyLoop, if_neg hw2, hnext]
    simp only [except_bind_ok, hkt, htp.2.2, Bool.false_eq_true, if_false, and_false]
    cases fuel <;> simp [keyLoop]
  have scanned : ∃ f, scanLoop I (ringOctets bs ++ (packetOctets b.head ++ (packetsOctets pre ++ w))).length (ringOctets bs ++ (packetOctets b.head ++ (packetsOctets pre ++ w))).length
      (ringOctets bs ++ (packetOctets b.head ++ (packetsOctets pre ++ w))) none [] = .ok (entries 0 (bs ++ [b]), f) := by
    generalize hsz : (ringOctets bs ++ (packetOctets b.head ++ (packetsOctets pre ++ w))).length = size
    have hfu : ∃ j, size = j + 1 + pre.length + 1 + packetCount bs := ⟨size - (pre.length + 2 + packetCount bs), by rw [List.length_append] at hsz; omega⟩
    obtain ⟨j, hj⟩ := hfu
    have step1 := scan_suffix size bs (j + 1 + pre.length + 1) 0 (packetOctets b.head ++ (packetsOctets pre ++ w)) none [] hw (by omega)
    rw [← hj] at step1
    rw [step1, scanLoop, if_neg hhead.1, hhead.2]
    simp only [except_bind_ok, hkh, if_true, hwb.headId]
    obtain ⟨f, hf⟩ : ∃ f, (fmtAfter none bs).or (some b.head.fmt) = some f := by cases fmtAfter none bs <;> simp
    rw [hf, scanLoop_rest _ _ _ _ _ _ hgood (fun q hq => ⟨(hwb.restType q (hin q hq)).1, (hwb.restType q (hin q hq)).2.1⟩), scanW]
    refine ⟨_, congrArg Except.ok (Prod.ext ?_ rfl)⟩
    rw [entries_append]
    simp only [List.nil_append, entries, shortId_eq, List.length_append] at hsz ⊢
    congr 3
    omega
  obtain ⟨f, hf⟩ := scanned
  refine ⟨ringOctets bs ++ (packetOctets b.head ++ (packetsOctets pre ++ w)), ⟨ringOctets bs ++ (packetOctets b.head ++ (packetsOctets pre ++ w)), entries 0 (bs ++ [b]), f, false⟩, ?_, ?_, ?_⟩
  · have hcs' := hcs (ringOctets bs ++ (packetOctets b.head ++ (packetsOctets pre ++ w)))
    rw [h2.file] at hcs'
    refine hcs'.mpr (Or.inr ⟨rfl, ?_⟩)
    rw [hkeys, ringOctets_append, List.prefix_append_right_inj]
    have e : ringOctets [b] = packetOctets b.head ++ (packetsOctets pre ++ (w ++ (p.content.drop n ++ packetsOctets post))) := by
      have e1 : packetsOctets (pre ++ p :: post) = packetsOctets pre ++ (packetOctets p ++ packetsOctets post) := by simp [packetsOctets]
      simp only [ringOctets, List.flatMap_cons, List.flatMap_nil, List.append_nil, KeyBlock.octets_eq, hp, e1, hw1, List.append_assoc]
    rw [e, List.prefix_append_right_inj, List.prefix_append_right_inj]
    exact List.prefix_append _ _
  · unfold Keyring.open Keyring.updateTable
    simp only [hf, except_bind_ok, except_pure]
  · intro fp hfp
    have hg := entries_get (off := 0) (as := bs) (bs := []) (b := b) (s := shortId fp) (by simp [KeyBlock.hasShort, hsh, hfp]) (by simp)
    unfold Keyring.get
    simp only [shortId_eq, hg, Nat.zero_add]
    unfold Keyring.getAt
    simp only [List.drop_left]
    obtain ⟨j, hj⟩ : ∃ j, (ringOctets bs ++ (packetOctets b.head ++ (packetsOctets pre ++ w))).length = j + 1 + pre.length + 1 :=
      ⟨(ringOctets bs ++ (packetOctets b.head ++ (packetsOctets pre ++ w))).length - (pre.length + 2), by rw [List.length_append]; omega⟩
    have h8 : b.head.type ≠ 8 := by have := hwb.headType; omega
    rw [hj, keyLoop, if_neg hhead.1, hhead.2]
    simp only [except_bind_ok, h8, if_false, ne_eq, not_true_eq_false, false_and, List.nil_append]
    rw [keyLoop_rest _ _ _ _ _ hgood (fun q hq => hwb.restType q (hin q hq)), keyW]
    simp only [except_bind_ok, hkh, if_true, except_pure, List.nil_append]

example (r : Keyring) (hr : Keyring.open exI (ringOctets ([exBlock 65] ++ exBlock 66 :: [exBlock 67])) false = .ok r) :=
  C63_torn_packet_refuted exI _ exRing_wf exNew exNew_wf r hr [] [⟨.new, 2, [4]⟩] ⟨.old, 13, [65, 66]⟩ rfl 1 (by decide) rfl

/-! ## C114 -/

/-- The object was made, or last changed the file, when it held the keys `known`; since then keys were only added, and it holds `all`. -/
structure Knows (r : Keyring) (known all : List KeyBlock) : Prop where
  table : r.table = entries 0 known
  before : known <+: all
  fmt : r.fmt = known.head?.map (fun b => b.head.fmt)
  writable : r.readOnly = false

theorem knows_get {I : PacketInfo} {r : Keyring} {known all : List KeyBlock} (hw : ∀ b ∈ all, b.WF I) (h : Knows r known all) (fp : List Char) :
    (r.on (ringOctets all)).get I fp = match lastMatch known (shortId fp) with
      | none => .error .keyError
      | some b => .ok b.packets := by
  obtain ⟨new, rfl⟩ := h.before
  unfold Keyring.get
  have ht : (r.on (ringOctets (known ++ new))).table = entries 0 known := h.table
  rw [ht, shortId_eq]
  rcases split_last known (shortId fp) with ⟨h1, h2⟩ | ⟨b, h1, h2, h3, h4⟩
  · rw [entries_none h2, h1]
  · rw [h1]
    generalize beforeLast known (shortId fp) = as at *
    generalize afterLast known (shortId fp) = cs at *
    subst h3
    have hwb : b.WF I := hw b (by simp)
    have hwa : ∀ c ∈ cs ++ new, c.WF I := fun c hc => hw c (by
      rcases List.mem_append.mp hc with hc | hc <;> simp [hc])
    rw [entries_get (off := 0) (as := as) h2 h4]
    simp only [Nat.zero_add]
    unfold Keyring.getAt
    have hfile : (r.on (ringOctets (as ++ b :: cs ++ new))).file = ringOctets as ++ (b.octets ++ ringOctets (cs ++ new)) := by
      show ringOctets (as ++ b :: cs ++ new) = _
      rw [List.append_assoc, ringOctets_append, List.cons_append, ringOctets_cons]
    rw [hfile]
    have hc : b.packets.length + packetCount (cs ++ new) ≤ (ringOctets as ++ (b.octets ++ ringOctets (cs ++ new))).length := by
      have h5 := packetsOctets_length hwb.good
      have h6 := packetCount_le hwa
      have : b.octets = packetsOctets b.packets := rfl
      rw [List.length_append, List.length_append, this]; omega
    rw [List.drop_left, keyLoop_block hwb hwa hc]
    simp only [except_bind_ok, KeyBlock.packets, (isKeyType_iff _).2 hwb.headType, if_true, except_pure]

theorem knows_add {I : PacketInfo} {r : Keyring} {known all : List KeyBlock} (hw : ∀ b ∈ all, b.WF I) (h : Knows r known all) (k : SpecKey) (hk : k.WF I) :
    ∃ f r', (r.on (ringOctets all)).add I k.toNew = (.ok (), r') ∧ r'.file = ringOctets (all ++ [k.block f]) ∧ Knows r' (all ++ [k.block f]) (all ++ [k.block f]) := by
  have hw' : ∀ b ∈ all ++ [k.block r.fmt], b.WF I := by
    intro b hb
    rcases List.mem_append.mp hb with hb | hb
    · exact hw b hb
    · rw [List.mem_singleton] at hb; subst hb; exact hk.wf _
  obtain ⟨r', h1, h2, h3, h4⟩ := write_inSync (r := r.on (ringOctets all)) hw' (data := ringOctets all ++ (k.block r.fmt).octets) (by
    rw [ringOctets_append]; simp [ringOctets])
  refine ⟨r.fmt, r', ?_, h2.file, ⟨h2.table, List.prefix_refl _, ?_, by rw [h4]; exact h.writable⟩⟩
  · have hro : (r.on (ringOctets all)).readOnly = false := h.writable
    have ht : (r.on (ringOctets all)).table = entries 0 known := h.table
    unfold Keyring.add
    simp only [hro, ht, Bool.false_eq_true, if_false, SpecKey.toNew, tableGet_long hk.long, Option.isSome_none]
    exact h1
  · rw [h3]
    show fmtAfter r.fmt _ = _
    obtain ⟨new, rfl⟩ := h.before
    unfold fmtAfter
    cases known with
    | nil => rw [h.fmt]; rfl
    | cons c cs => rw [h.fmt]; rfl

theorem shared_adds (I : PacketInfo) (ops : List (Nat × SpecKey)) : ∀ (s : SharedRing) (all : List KeyBlock) (known : Nat → List KeyBlock), (∀ b ∈ all, b.WF I) →
    s.file = ringOctets all → (∀ (i : Nat) (r : Keyring), s.objects[i]? = some r → Knows r (known i) all) →
    (∀ op ∈ ops, op.1 < s.objects.length ∧ op.2.WF I) →
    ∃ s' added, sharedAdds I s ops = some (List.replicate ops.length (.ok ()), s') ∧ List.Forall₂ (fun op b => ∃ f, b = op.2.block f) ops added ∧
      (∀ b ∈ all ++ added, b.WF I) ∧ s'.file = ringOctets (all ++ added) ∧ s'.objects.length = s.objects.length ∧
      ∀ (i : Nat) (r : Keyring), s'.objects[i]? = some r → Knows r (if lastBy i ops = 0 then known i else all ++ added.take (lastBy i ops)) (all ++ added) := by
  induction ops with
  | nil =>
    intro s all known hw hf hk _
    exact ⟨s, [], rfl, .nil, by simpa using hw, by simpa using hf, rfl, fun i r hr => by simpa [lastBy] using hk i r hr⟩
  | cons op ops ih =>
    intro s all known hw hf hk ho
    obtain ⟨i, k⟩ := op
    obtain ⟨hi, hkw⟩ := ho (i, k) (by simp)
    simp only at hi hkw
    obtain ⟨r, hr⟩ : ∃ r, s.objects[i]? = some r := ⟨_, List.getElem?_eq_getElem hi⟩
    obtain ⟨f, r', h1, h2, h3⟩ := knows_add hw (hk i r hr) k hkw
    have hw' : ∀ b ∈ all ++ [k.block f], b.WF I := by
      intro b hb
      rcases List.mem_append.mp hb with hb | hb
      · exact hw b hb
      · rw [List.mem_singleton] at hb; subst hb; exact hkw.wf _
    have hstep : s.step i (fun r => r.add I k.toNew) = some (.ok (), ⟨r'.file, s.objects.set i r'⟩) := by
      unfold SharedRing.step
      rw [hr, hf]
      simp only [h1]
    obtain ⟨s', added, g1, g2, g3, g4, g5, g6⟩ := ih ⟨r'.file, s.objects.set i r'⟩ (all ++ [k.block f]) (fun j => if j = i then all ++ [k.block f] else known j) hw' h2 (by
      intro j q hq
      simp only [List.getElem?_set] at hq
      by_cases hij : i = j
      · subst hij
        rw [if_pos rfl, if_pos hi] at hq
        injection hq with hq
        subst hq
        simpa using h3
      · rw [if_neg hij] at hq
        have hj := hk j q hq
        simp only [if_neg (Ne.symm hij)]
        exact ⟨hj.table, hj.before.trans (List.prefix_append _ _), hj.fmt, hj.writable⟩) (by
      intro op hop
      have := ho op (by simp [hop])
      simpa using this)
    refine ⟨s', k.block f :: added, ?_, .cons ⟨f, rfl⟩ g2, by simpa using g3, by simpa using g4, by simpa using g5, ?_⟩
    · unfold sharedAdds
      rw [hstep]
      simp only [g1, List.length_cons, List.replicate_succ]
    · intro j q hq
      have := g6 j q hq
      have e : all ++ [k.block f] ++ added = all ++ k.block f :: added := by simp
      rw [e] at this
      have el : lastBy j ((i, k) :: ops) = if lastBy j ops ≠ 0 then lastBy j ops + 1 else if i = j then 1 else 0 := rfl
      rw [el]
      by_cases h0 : lastBy j ops = 0
      · rw [if_pos h0] at this
        by_cases hij : i = j
        · subst hij
          simpa [h0] using this
        · simpa [h0, hij, Ne.symm hij] using this
      · rw [if_neg h0] at this
        rw [if_pos h0, if_neg (by omega)]
        simpa using this

/-- C114, what holds: any number of objects made for the same keyring file may add keys, in any order: every addition succeeds, and the file holds the old keys and all the added ones, in
order. Each object finds the keys that were there when it was made or last added one itself. -/
theorem C114_adds_partial (I : PacketInfo) (bs : List KeyBlock) (hw : ∀ b ∈ bs, b.WF I) (r : Keyring) (hr : Keyring.open I (ringOctets bs) false = .ok r) (m : Nat)
    (ops : List (Nat × SpecKey)) (ho : ∀ op ∈ ops, op.1 < m ∧ op.2.WF I) :
    ∃ s added, sharedAdds I ⟨ringOctets bs, List.replicate m r⟩ ops = some (List.replicate ops.length (.ok ()), s) ∧
      List.Forall₂ (fun op b => ∃ f, b = op.2.block f) ops added ∧ s.file = ringOctets (bs ++ added) ∧
      ∀ i < m, ∀ fp, (s.step i (fun r => (r.get I fp, r))).map Prod.fst = some (match lastMatch (bs ++ added.take (lastBy i ops)) (shortId fp) with
        | none => .error .keyError
        | some b => .ok b.packets) := by
  obtain ⟨r0, h1, h2, h3, h4⟩ := open_inSync hw false
  rw [hr] at h1
  cases h1
  obtain ⟨s, added, g1, g2, g3, g4, g5, g6⟩ := shared_adds I ops ⟨ringOctets bs, List.replicate m r⟩ bs (fun _ => bs) hw rfl (by
    intro i q hq
    simp only [List.getElem?_replicate] at hq
    split at hq
    · injection hq with hq
      subst hq
      exact ⟨h2.table, List.prefix_refl _, h3, h4⟩
    · cases hq) (by simpa using ho)
  refine ⟨s, added, g1, g2, g4, fun i hi fp => ?_⟩
  rw [List.length_replicate] at g5
  obtain ⟨q, hq⟩ : ∃ q, s.objects[i]? = some q := ⟨_, List.getElem?_eq_getElem (by omega)⟩
  have hkn := g6 i q hq
  have hks : (if lastBy i ops = 0 then bs else bs ++ added.take (lastBy i ops)) = bs ++ added.take (lastBy i ops) := by
    split
    · rename_i h0; rw [h0]; simp
    · rfl
  rw [hks] at hkn
  unfold SharedRing.step
  rw [hq, g4]
  simp only [Option.map_some, knows_get g3 hkn]

example (r : Keyring) (hr : Keyring.open exI (ringOctets ([exBlock 65] ++ exBlock 66 :: [exBlock 67])) false = .ok r) :=
  C114_adds_partial exI _ exRing_wf r hr 3 [(0, exNew), (2, exNew), (0, exNew)] (by
    intro op h
    simp only [List.mem_cons, List.not_mem_nil, or_false] at h
    rcases h with rfl | rfl | rfl <;> exact ⟨by decide, exNew_wf⟩)

/-- C114 refuted: a key added by one object is in the file, but another object made before does not find it. -/
theorem C114_unseen_refuted (I : PacketInfo) (bs : List KeyBlock) (hw : ∀ b ∈ bs, b.WF I) (r : Keyring) (hr : Keyring.open I (ringOctets bs) false = .ok r) (k : SpecKey) (hk : k.WF I)
    (hnew : ∀ b ∈ bs, shortId b.keyId ≠ shortId k.fingerprint) :
    ∃ s f, (⟨ringOctets bs, [r, r]⟩ : SharedRing).step 0 (fun r => r.add I k.toNew) = some (.ok (), s) ∧ s.file = ringOctets (bs ++ [k.block f]) ∧
      (s.step 0 (fun r => (r.get I k.fingerprint, r))).map Prod.fst = some (.ok (k.block f).packets) ∧
      (s.step 1 (fun r => (r.get I k.fingerprint, r))).map Prod.fst = some (.error .keyError) := by
  obtain ⟨s, added, h1, h2, h3, h4⟩ := C114_adds_partial I bs hw r hr 2 [(0, k)] (by simpa using hk)
  obtain ⟨b, hb, rfl⟩ : ∃ b, (∃ f, b = k.block f) ∧ added = [b] := by
    cases h2 with
    | cons h t => cases t; exact ⟨_, h, rfl⟩
  obtain ⟨f, rfl⟩ := hb
  have e0 := h4 0 (by decide) k.fingerprint
  have e1 := h4 1 (by decide) k.fingerprint
  have l0 : lastBy 0 [(0, k)] = 1 := rfl
  have l1 : lastBy 1 [(0, k)] = 0 := rfl
  rw [l0] at e0
  rw [l1] at e1
  refine ⟨s, f, ?_, h3, ?_, ?_⟩
  · simp only [sharedAdds] at h1
    cases hs : SharedRing.step ⟨ringOctets bs, [r, r]⟩ 0 (fun r => r.add I k.toNew) with
    | none => rw [show (List.replicate 2 r) = [r, r] from rfl, hs] at h1; cases h1
    | some y =>
      obtain ⟨o, s'⟩ := y
      rw [show (List.replicate 2 r) = [r, r] from rfl, hs] at h1
      simp only [Option.some.injEq, Prod.mk.injEq, List.length_cons, List.length_nil, List.replicate_succ, List.replicate_zero, List.cons.injEq, and_true] at h1
      rw [h1.1, h1.2]
  · rw [e0]
    simp [lastMatch, KeyBlock.hasShort, hk.short f]
  · rw [e1]
    have : lastMatch bs (shortId k.fingerprint) = none := by
      unfold lastMatch
      rw [List.find?_eq_none]
      intro b hb
      rw [List.mem_reverse] at hb
      simpa [KeyBlock.hasShort] using hnew b hb
    simp [this]

/-- C114 refuted: objects remember where in the file the keys were. Two objects are made for a keyring whose last key is `b`; through the first, `b` is deleted and another key is added.
Through the second, looking up `b` gives the other key, and deleting `b`, which succeeds, deletes it. -/
theorem C114_wrong_key_refuted (I : PacketInfo) (bs : List KeyBlock) (b : KeyBlock) (hw : ∀ c ∈ bs ++ [b], c.WF I) (r : Keyring)
    (hr : Keyring.open I (ringOctets (bs ++ [b])) false = .ok r) (fp : List Char) (hfp : shortId b.keyId = shortId fp) (k : SpecKey) (hk : k.WF I) :
    ∃ s1 s2 s3 f, (⟨ringOctets (bs ++ [b]), [r, r]⟩ : SharedRing).step 0 (fun r => r.delete I fp) = some (.ok (), s1) ∧
      s1.step 0 (fun r => r.add I k.toNew) = some (.ok (), s2) ∧ s2.file = ringOctets (bs ++ [k.block f]) ∧
      (s2.step 1 (fun r => (r.get I fp, r))).map Prod.fst = some (.ok (k.block f).packets) ∧
      s2.step 1 (fun r => r.delete I fp) = some (.ok (), s3) ∧ s3.file = ringOctets bs := by
  obtain ⟨r0, h1, h2, h3, h4⟩ := open_inSync hw false
  rw [hr] at h1
  cases h1
  have hwb : ∀ c ∈ bs, c.WF I := fun c hc => hw c (by simp [hc])
  have hs : b.hasShort (shortId fp) = true := by simp [KeyBlock.hasShort, hfp]
  have hon : r.on (ringOctets (bs ++ [b])) = r := by rw [← h2.file]; rfl
  obtain ⟨d1, d2, -⟩ := C33_delete_last_partial I bs b hw fp hfp r hr
  obtain ⟨bs', r1, e1, e2, e3, e4⟩ := step_inSync h2 h4 (.delete fp) trivial
  have e2' : (r.delete I fp).2 = r1 := e2
  have hbs' : ringOctets bs' = ringOctets bs := by rw [← e3.file, ← e2', d2]
  obtain ⟨bs2, r2, a1, a2, a3, a4⟩ := step_inSync e3 e4 (.add k) hk
  have ha : bs2 = bs' ++ [k.block r1.fmt] ∧ (r1.add I k.toNew).1 = .ok () := by
    have i1 : bs' ++ [k.block r1.fmt] = bs2 := congrArg (fun x => x.2.keys) a1
    have i2 := congrArg Prod.fst a1
    exact ⟨i1.symm, i2.symm⟩
  have hf2 : r2.file = ringOctets (bs ++ [k.block r1.fmt]) := by rw [a3.file, ha.1, ringOctets_append, hbs', ringOctets_append]
  have a2' : (r1.add I k.toNew).2 = r2 := a2
  have hr1 : r1.on (ringOctets bs) = r1 := by rw [← hbs', ← e3.file]; rfl
  have hoff : tableGet (r.on (ringOctets (bs ++ [k.block r1.fmt]))).table (lastN fp 8) = some (ringOctets bs).length := by
    show tableGet r.table (lastN fp 8) = _
    rw [h2.table, shortId_eq, entries_get (off := 0) (as := bs) (bs := []) hs (by simp), Nat.zero_add]
  have hkb := hk.wf r1.fmt
  generalize hB : k.block r1.fmt = B at *
  have hfile : ringOctets (bs ++ [B]) = ringOctets bs ++ (B.octets ++ ringOctets []) := by rw [ringOctets_append, ringOctets_cons]
  have hcount : B.packets.length + packetCount [] ≤ (ringOctets (bs ++ [B])).length := by
    have h5 := packetsOctets_length hkb.good
    have : B.octets = packetsOctets B.packets := rfl
    rw [hfile, List.length_append, List.length_append, this]
    simp only [packetCount, List.map_nil, List.sum_nil]; omega
  have hget : (r.on (ringOctets (bs ++ [B]))).get I fp = .ok B.packets := by
    unfold Keyring.get
    rw [hoff]
    simp only
    unfold Keyring.getAt
    show (keyLoop I (ringOctets (bs ++ [B])).length ((ringOctets (bs ++ [B])).drop (ringOctets bs).length) [] >>= _) = _
    rw [show (ringOctets (bs ++ [B])).drop (ringOctets bs).length = B.octets ++ ringOctets [] by rw [hfile, List.drop_left], keyLoop_block hkb (by simp) hcount]
    simp only [except_bind_ok, KeyBlock.packets, (isKeyType_iff _).2 hkb.headType, if_true, except_pure]
  have hdel : ∃ r3, (r.on (ringOctets (bs ++ [B]))).delete I fp = (.ok (), r3) ∧ r3.file = ringOctets bs := by
    obtain ⟨r3, w1, w2, -, -⟩ := write_inSync (r := r.on (ringOctets (bs ++ [B]))) hwb (data := ringOctets bs) rfl
    refine ⟨r3, ?_, w2.file⟩
    have hro : (r.on (ringOctets (bs ++ [B]))).readOnly = false := h4
    unfold Keyring.delete
    rw [hoff]
    simp only [hro, Bool.false_eq_true, if_false]
    have hfl : (r.on (ringOctets (bs ++ [B]))).file = ringOctets (bs ++ [B]) := rfl
    have hdrop : (ringOctets (bs ++ [B])).drop (ringOctets bs).length = ringOctets [B] := by rw [ringOctets_append, List.drop_left]
    have htake : (ringOctets (bs ++ [B])).take (ringOctets bs).length = ringOctets bs := by rw [ringOctets_append, List.take_left]
    have hne : ringOctets [B] ≠ [] := by
      have := packetsOctets_length hkb.good
      rw [ringOctets_cons]
      intro h0
      have h0 := congrArg List.length h0
      have e : B.octets = packetsOctets B.packets := rfl
      rw [List.length_append, e] at h0
      simp only [KeyBlock.packets, List.length_cons, List.length_nil] at this h0
      omega
    rw [hfl, hdrop, htake, tailLoop_ring (b := B) (bs := []) (by simpa using hkb) (by simpa [packetCount] using hcount)]
    simp only [except_bind_ok, hne, if_false, except_pure, List.append_nil]
    exact w1
  obtain ⟨r3, hd1, hd2⟩ := hdel
  refine ⟨⟨ringOctets bs, [r1, r]⟩, ⟨ringOctets (bs ++ [B]), [r2, r]⟩, ⟨ringOctets bs, [r2, r3]⟩, r1.fmt, ?_, ?_, ?_, ?_, ?_, rfl⟩
  · unfold SharedRing.step
    have hf1 : r1.file = ringOctets bs := by rw [← e2', d2]
    simp only [List.getElem?_cons_zero, hon, d1, e2', hf1, List.set_cons_zero]
  · unfold SharedRing.step
    simp only [List.getElem?_cons_zero, hr1, ha.2, a2', hf2, List.set_cons_zero]
  · rw [hB]
  · unfold SharedRing.step
    simp only [List.getElem?_cons_succ, List.getElem?_cons_zero, Option.map_some, hget, hB]
  · unfold SharedRing.step
    simp only [List.getElem?_cons_succ, List.getElem?_cons_zero, hd1, hd2, List.set_cons_succ, List.set_cons_zero]

example (r : Keyring) (hr : Keyring.open exI (ringOctets ([exBlock 65] ++ [exBlock 66])) false = .ok r) :=
  C114_wrong_key_refuted exI _ _ exRing_wf2 r hr (List.replicate 40 'B') (by decide) ⟨List.replicate 40 'C', fun _ => exBlock 67⟩
    ⟨fun _ => exBlock_wf _, fun _ => show shortId (exBlock 67).keyId = shortId (List.replicate 40 'C') by decide, by decide⟩

end Pgp.Props
