import Verif.Props.Import
/-
Property theorems C120, continued: histories of storing, replacing and removing keys in a keyring file.
-/
namespace Pgp.Props
open Spec

/-- The keyring object is in step with the keyring file as a user sees it. -/
def RingIs (fl : FloorLog2) (H : Digest) (magic : Bytes → Str) (r : Keyring) (s : FileRing) : Prop :=
  RingHolds fl H magic r s.keys ∧ r.readOnly = false ∧ r.fmt = s.fmt

theorem fmt_some {I : PacketInfo} {r : Keyring} {bs : List KeyBlock} (h : InSync I r bs) (hb : bs ≠ []) : ∃ f, r.fmt = some f := by
  have := h.fmt
  cases hr : r.fmt with
  | some f => exact ⟨f, rfl⟩
  | none =>
    rw [hr] at this
    cases bs with
    | nil => exact absurd rfl hb
    | cons b bs => cases this

theorem or_of_some {f : HeaderFormat} (o : Option HeaderFormat) : (some f).or o = some f := rfl

theorem file_split {I : PacketInfo} {r : Keyring} {b1 b2 : List KeyBlock} {b : KeyBlock} (h : InSync I r (b1 ++ b :: b2)) :
    r.file.drop (ringOctets b1).length = ringOctets (b :: b2) ∧ r.file.take (ringOctets b1).length = ringOctets b1 ∧ ringOctets (b :: b2) ≠ [] ∧
      tailLoop I r.file.length (ringOctets (b :: b2)) none = .ok (some b.head.fmt, []) := by
  have hfile : r.file = ringOctets b1 ++ ringOctets (b :: b2) := by rw [h.file, ringOctets_append]
  have hwt : ∀ c ∈ b :: b2, c.WF I := fun c hc => h.wf c (List.mem_append_right _ hc)
  have hc : packetCount (b :: b2) ≤ r.file.length := by
    have := packetCount_le hwt
    rw [hfile, List.length_append]; omega
  refine ⟨by rw [hfile]; simp, by rw [hfile]; simp, ?_, tailLoop_ring hwt hc⟩
  have := packetCount_le hwt
  intro h0
  rw [h0] at this
  simp [packetCount, KeyBlock.packets] at this

theorem delete_found {I : PacketInfo} {r : Keyring} {b1 b2 : List KeyBlock} {b : KeyBlock} {q : Str} (h : InSync I r (b1 ++ b :: b2)) (hro : r.readOnly = false)
    (hb : b.hasShort (shortId q) = true) (h2 : ∀ c ∈ b2, c.hasShort (shortId q) = false) :
    ∃ r', r.delete I q = (.ok (), r') ∧ InSync I r' b1 ∧ r'.readOnly = false ∧ r'.fmt = r.fmt := by
  obtain ⟨f1, f2, f3, f4⟩ := file_split h
  obtain ⟨r', w1, w2, w3, w4⟩ := write_inSync (I := I) (r := r) (bs := b1) (fun c hc => h.wf c (List.mem_append_left _ hc)) rfl
  obtain ⟨f, hf⟩ := fmt_some h (by simp)
  refine ⟨r', ?_, w2, w4.trans hro, by rw [w3, fmtAfter, hf]; rfl⟩
  unfold Keyring.delete
  rw [if_neg (by rw [hro]; decide), shortId_eq, h.table, entries_get hb h2]
  simp only [Nat.zero_add, f1, f2, f4, except_bind_ok, if_neg f3, except_pure, List.append_nil, w1]

theorem delete_missing {I : PacketInfo} {r : Keyring} {bs : List KeyBlock} {q : Str} (h : InSync I r bs) (hro : r.readOnly = false)
    (h2 : ∀ c ∈ bs, c.hasShort (shortId q) = false) : r.delete I q = (.error .keyError, r) := by
  unfold Keyring.delete
  rw [if_neg (by rw [hro]; decide), shortId_eq, h.table, entries_none h2]

theorem update_found {I : PacketInfo} {r : Keyring} {b1 b2 : List KeyBlock} {b b' : KeyBlock} {key : NewKey} (h : InSync I r (b1 ++ b :: b2)) (hro : r.readOnly = false)
    (hb : b.hasShort (shortId key.fingerprint) = true) (h2 : ∀ c ∈ b2, c.hasShort (shortId key.fingerprint) = false) (hk : key.bytes (some b.head.fmt) = .ok b'.octets) (hw : b'.WF I) :
    ∃ r', r.update I key = (.ok (), r') ∧ InSync I r' (b1 ++ [b']) ∧ r'.readOnly = false ∧ r'.fmt = r.fmt := by
  obtain ⟨f1, f2, f3, f4⟩ := file_split h
  obtain ⟨r', w1, w2, w3, w4⟩ := write_inSync (I := I) (r := r) (bs := b1 ++ [b']) (by
    intro c hc
    rcases List.mem_append.mp hc with hc | hc
    · exact h.wf c (List.mem_append_left _ hc)
    · rw [List.mem_singleton] at hc; subst hc; exact hw) (data := ringOctets b1 ++ b'.octets) (by rw [ringOctets_append]; simp [ringOctets])
  obtain ⟨f, hf⟩ := fmt_some h (by simp)
  refine ⟨r', ?_, w2, w4.trans hro, by rw [w3, fmtAfter, hf]; rfl⟩
  unfold Keyring.update
  rw [if_neg (by rw [hro]; decide), shortId_eq, h.table, entries_get hb h2]
  simp only [Nat.zero_add, f1, f2, f4, except_bind_ok, if_neg f3, except_pure, List.append_nil, hk, w1]

theorem update_missing {I : PacketInfo} {r : Keyring} {bs : List KeyBlock} {key : NewKey} (h : InSync I r bs) (hro : r.readOnly = false)
    (h2 : ∀ c ∈ bs, c.hasShort (shortId key.fingerprint) = false) : r.update I key = (.error .keyError, r) := by
  unfold Keyring.update
  rw [if_neg (by rw [hro]; decide), shortId_eq, h.table, entries_none h2]

/-- The blocks of the keys. -/
theorem blocks_short {fl : FloorLog2} {H : Digest} {magic : Bytes → Str} {l : List (Bytes × Str)} {bs : List KeyBlock} {q : Str}
    (h : List.Forall₂ (fun (x : Bytes × Str) b => ∃ F k, FileFacts fl H magic F x.1 x.2 k b) l bs) (hq : ∀ x ∈ l, lastEight x.2 ≠ lastEight q) :
    ∀ c ∈ bs, c.hasShort (shortId q) = false := by
  intro c hc
  obtain ⟨x, hx, F, k, hk⟩ := forall₂_mem_right h c hc
  unfold KeyBlock.hasShort
  rw [hk.short]
  exact beq_eq_false_iff_ne.mpr (hq x hx)

theorem last_blocks {fl : FloorLog2} {H : Digest} {magic : Bytes → Str} {keys before after : List (Bytes × Str)} {x : Bytes × Str} {bs : List KeyBlock} {q : Str}
    (h : List.Forall₂ (fun (x : Bytes × Str) b => ∃ F k, FileFacts fl H magic F x.1 x.2 k b) keys bs) (hl : LastWith q keys before x after) :
    ∃ b1 b b2, bs = b1 ++ b :: b2 ∧ List.Forall₂ (fun (x : Bytes × Str) b => ∃ F k, FileFacts fl H magic F x.1 x.2 k b) before b1 ∧ b.hasShort (shortId q) = true ∧
      (∀ c ∈ b2, c.hasShort (shortId q) = false) ∧ formatOf x.1 = some b.head.fmt := by
  obtain ⟨rfl, hx, ha⟩ := hl
  obtain ⟨b1, b2, rfl, hb1, hb2⟩ := forall₂_split h
  cases hb2 with
  | @cons _ b _ b2 hb hrest =>
    obtain ⟨F, k, hk⟩ := hb
    refine ⟨b1, b, b2, rfl, hb1, ?_, blocks_short hrest ha, ?_⟩
    · unfold KeyBlock.hasShort
      rw [hk.short]
      exact beq_iff_eq.mpr hx
    · simpa using hk.first []

theorem step_is {fl : Nat → Nat} (hl : LogOnCounts fl) {good : Nat → Prop} (hg : GoodInts fl good) {H : Digest} (hH : ∀ d, (H 2 d).length = 20) {magic : Bytes → Str}
    {r : Keyring} {s t : FileRing} {op : FileOp} {a : Py Unit} (h : RingIs fl H magic r s) (hs : s.Step magic (H 2) good op a t) :
    (r.fileStep fl H magic op).1 = a ∧ RingIs fl H magic (r.fileStep fl H magic op).2 t := by
  obtain ⟨⟨bs, h1, h2⟩, hro, hf⟩ := h
  cases hs with
  | @store F d w fp hd hfp hw =>
    rw [← hf] at hw
    obtain ⟨k, k1, k2, k3, F', k', b', hk', _⟩ := written_facts hl hg hH hd hfp hw
    have h3 : List.Forall₂ (fun (x : Bytes × Str) b => ∃ F k, FileFacts fl H magic F x.1 x.2 k b) (s.keys ++ [(w, fp)]) (bs ++ [b']) :=
      List.rel_append h1 (.cons ⟨_, k', hk'⟩ .nil)
    obtain ⟨r', e1, e2, e3, e4⟩ := write_inSync (r := r) (ringHolds_wf h3).1 (data := r.file ++ w) (by
      rw [h2.file, ringOctets_append, ← hk'.stored]; simp [ringOctets])
    have hst : r.fileStep fl H magic (.store d) = (.ok (), r') := by
      unfold Keyring.fileStep Keyring.importFile Keyring.store
      simp only [k1, k2]
      unfold Keyring.add
      rw [if_neg (by rw [hro]; decide), h2.table, tableGet_long (by rw [hk'.long]; decide), if_neg (by decide)]
      simp only [k3]
      exact e1
    rw [hst]
    refine ⟨rfl, ⟨_, h3, e2⟩, e4.trans hro, ?_⟩
    rw [e3, fmtAfter, hf]
    cases hr : s.fmt with
    | some g => rfl
    | none =>
      cases bs with
      | nil =>
        have := hk'.first []
        rw [List.append_nil] at this
        rw [this]; rfl
      | cons b bs =>
        obtain ⟨f, hf'⟩ := fmt_some h2 (by simp)
        rw [hf, hr] at hf'
        cases hf'
  | @replace F d w fp before after x hd hfp hlast hw =>
    obtain ⟨b1, b, b2, rfl, c1, c2, c3, c4⟩ := last_blocks h1 hlast
    rw [c4] at hw
    obtain ⟨k, k1, k2, k3, F', k', b', hk', _⟩ := written_facts hl hg hH hd hfp hw
    obtain ⟨r', e1, e2, e3, e4⟩ := update_found (key := ⟨fp, fun f => k.octets fl f⟩) h2 hro c2 c3 (by rw [hk'.stored]; exact k3) hk'.wf
    have hst : r.fileStep fl H magic (.replace d) = (.ok (), r') := by
      unfold Keyring.fileStep Keyring.replaceFile Keyring.replace
      simp only [k1, k2]
      exact e1
    rw [hst]
    exact ⟨rfl, ⟨_, List.rel_append c1 (.cons ⟨_, k', hk'⟩ .nil), e2⟩, e3, e4.trans hf⟩
  | @replaceMissing F d fp hd hfp hmiss =>
    obtain ⟨k, k1, k2, _⟩ := written_facts hl hg hH hd hfp (fmt := none) rfl
    have hst : r.fileStep fl H magic (.replace d) = (.error .keyError, r) := by
      unfold Keyring.fileStep Keyring.replaceFile Keyring.replace
      simp only [k1, k2]
      exact update_missing h2 hro (blocks_short h1 hmiss)
    rw [hst]
    exact ⟨rfl, ⟨bs, h1, h2⟩, hro, hf⟩
  | @remove q before after x hlast =>
    obtain ⟨b1, b, b2, rfl, c1, c2, c3, _⟩ := last_blocks h1 hlast
    obtain ⟨r', e1, e2, e3, e4⟩ := delete_found h2 hro c2 c3
    have hst : r.fileStep fl H magic (.remove q) = (.ok (), r') := e1
    rw [hst]
    exact ⟨rfl, ⟨_, c1, e2⟩, e3, e4.trans hf⟩
  | @removeMissing q hmiss =>
    have hst : r.fileStep fl H magic (.remove q) = (.error .keyError, r) := delete_missing h2 hro (blocks_short h1 hmiss)
    rw [hst]
    exact ⟨rfl, ⟨bs, h1, h2⟩, hro, hf⟩

theorem run_is {fl : Nat → Nat} (hl : LogOnCounts fl) {good : Nat → Prop} (hg : GoodInts fl good) {H : Digest} (hH : ∀ d, (H 2 d).length = 20) {magic : Bytes → Str}
    {s t : FileRing} {ops : List FileOp} {l : List (Py Unit)} (hs : FileRing.Run magic (H 2) good s ops l t) :
    ∀ {r : Keyring}, RingIs fl H magic r s → (r.fileRun fl H magic ops).1 = l ∧ RingIs fl H magic (r.fileRun fl H magic ops).2 t := by
  induction hs with
  | nil s => intro r h; exact ⟨rfl, h⟩
  | @cons s t u op ops a l h _ ih =>
    intro r hr
    obtain ⟨h1, h2⟩ := step_is hl hg hH hr h
    obtain ⟨i1, i2⟩ := ih h2
    unfold Keyring.fileRun
    exact ⟨by simp only [h1, i1], i2⟩

/-- C120 (part that holds): a keyring file consisting of keys, public or secret and in any packet formats, is opened, and any history of storing, replacing and removing keys is
carried out. Each operation has the outcome and the effect of the same operation on the list of keys, as in `FileRing.Step`. Afterwards, and after opening the file anew, the file
consists of the keys of the list; every key is found, as it was written, under any text with the last eight digits of its fingerprint, unless a later key shares these; and
nothing is found under other texts. -/
theorem C120_history_partial (magic : Bytes → Str) (fl : Nat → Nat) (hl : LogOnCounts fl) (good : Nat → Prop)
    (hg : ∀ i, good i → LogRoom fl i ∧ (0 < i → fl i = Nat.log2 i)) (H : Digest) (hH : ∀ d, (H 2 d).length = 20)
    (old : List (Bytes × Str)) (hold : ∀ x ∈ old, (∃ F, AnyKeyFile magic F good x.1) ∧ FileFingerprint (H 2) good x.1 x.2)
    (ops : List FileOp) (outcomes : List (Py Unit)) (t : FileRing) (h : FileRing.Run magic (H 2) good ⟨old, formatOf (old.map Prod.fst).flatten⟩ ops outcomes t) :
    ∃ r r', Keyring.open (keyInfo fl H) (old.map Prod.fst).flatten false = .ok r ∧ r.fileRun fl H magic ops = (outcomes, r') ∧ r'.file = (t.keys.map Prod.fst).flatten ∧
      ∀ s, s = r' ∨ (∃ ro, Keyring.open (keyInfo fl H) r'.file ro = .ok s) →
        (∀ before after d fp q, LastWith q t.keys before (d, fp) after →
          ∃ k, s.lookup fl H magic q = .ok k ∧ readKey magic d = .ok k ∧ k.octets fl none = .ok d ∧ k.fingerprint fl H = .ok fp) ∧
        ∀ q, (∀ x ∈ t.keys, lastEight x.2 ≠ lastEight q) → s.lookup fl H magic q = .error .keyError := by
  obtain ⟨bs, hbs⟩ := old_blocks hl hg hH hold
  obtain ⟨r, o1, o2, o3, o4⟩ := open_holds hbs false
  obtain ⟨i1, i2, _, _⟩ := run_is hl hg hH h (r := r) ⟨o2, o3, o4⟩
  refine ⟨r, (r.fileRun fl H magic ops).2, o1, Prod.ext i1 rfl, ringHolds_file i2, fun s hs => ?_⟩
  have hs : RingHolds fl H magic s t.keys := by
    rcases hs with rfl | ⟨ro, hs⟩
    · exact i2
    · rw [ringHolds_file i2] at hs
      obtain ⟨bs', h1, _⟩ := i2
      obtain ⟨s', h2, h3, _⟩ := open_holds h1 ro
      rw [h2] at hs
      cases hs
      exact h3
  refine ⟨fun before after d fp q hq => ?_, fun q hq => ringHolds_missing hs hq⟩
  obtain ⟨he, hq1, hq2⟩ := hq
  exact ringHolds_lookup (he ▸ hs) hq1.symm (fun x hx => by rw [hq1]; exact hq2 x hx)

/-- C120 (refuted): removing a key, and replacing one, also removes every key that stands behind it in the file: none of them is found afterwards, unless a key before it or the
new one has the same digits. -/
theorem C120_later_keys_lost_refuted (magic : Bytes → Str) (fl : Nat → Nat) (hl : LogOnCounts fl) (good : Nat → Prop)
    (hg : ∀ i, good i → LogRoom fl i ∧ (0 < i → fl i = Nat.log2 i)) (H : Digest) (hH : ∀ d, (H 2 d).length = 20)
    (before after : List (Bytes × Str)) (x : Bytes × Str) (hold : ∀ y ∈ before ++ x :: after, (∃ F, AnyKeyFile magic F good y.1) ∧ FileFingerprint (H 2) good y.1 y.2)
    (hx : ∀ y ∈ after, lastEight y.2 ≠ lastEight x.2) :
    ∃ r, Keyring.open (keyInfo fl H) ((before ++ x :: after).map Prod.fst).flatten false = .ok r ∧
      (∃ r', r.delete (keyInfo fl H) x.2 = (.ok (), r') ∧ r'.file = (before.map Prod.fst).flatten ∧
        ∀ y ∈ after, (∀ z ∈ before, lastEight z.2 ≠ lastEight y.2) → r'.lookup fl H magic y.2 = .error .keyError) ∧
      ∀ F d w, AnyKeyFile magic F good d → FileFingerprint (H 2) good d x.2 → WrittenAs (formatOf x.1) d w →
        ∃ r', r.replaceFile fl H magic d = (.ok (), r') ∧ r'.file = (before.map Prod.fst).flatten ++ w ∧
          ∀ y ∈ after, (∀ z ∈ before, lastEight z.2 ≠ lastEight y.2) → r'.lookup fl H magic y.2 = .error .keyError := by
  obtain ⟨bs, hbs⟩ := old_blocks hl hg hH hold
  obtain ⟨r, o1, o2, o3, o4⟩ := open_holds hbs false
  have hlast : LastWith x.2 (before ++ x :: after) before x after := ⟨rfl, rfl, hx⟩
  refine ⟨r, o1, ?_, fun F d w hd hfp hw => ?_⟩
  · obtain ⟨i1, i2, _, _⟩ := step_is hl hg hH (s := ⟨before ++ x :: after, formatOf ((before ++ x :: after).map Prod.fst).flatten⟩) ⟨o2, o3, o4⟩ (.remove hlast)
    refine ⟨_, Prod.ext i1 rfl, ringHolds_file i2, fun y hy hz => ringHolds_missing i2 hz⟩
  · obtain ⟨i1, i2, _, _⟩ := step_is hl hg hH (s := ⟨before ++ x :: after, formatOf ((before ++ x :: after).map Prod.fst).flatten⟩) ⟨o2, o3, o4⟩ (.replace hd hfp hlast hw)
    refine ⟨_, Prod.ext i1 rfl, ?_, fun y hy hz => ringHolds_missing i2 fun z hz' => ?_⟩
    · refine (ringHolds_file i2).trans ?_
      simp
    · rcases List.mem_append.mp hz' with hz' | hz'
      · exact hz z hz'
      · rw [List.mem_singleton.mp hz']
        exact fun e => hx y hy e.symm

/-! ### Examples -/

private def exHistFp (H : Digest) : Str := hexText (H 2 ([0x99] ++ beBytes 2 exKeyOctets.length ++ exKeyOctets))

private theorem exHist_fp (H : Digest) (f : HeaderFormat) : FileFingerprint (H 2) (· < 4096) (exFile f) (exHistFp H) :=
  ⟨f, 6, [UInt8.ofNat ((if f = .new then 0xc0 + 6 else 0x80 + 4 * 6)), 13], exKeyOctets, [], _, .inl rfl, exHeader rfl (by decide) (by decide) (by decide), exKeyOctets_ok, rfl, rfl⟩

/-- A new-format key is stored in an empty file, replaced by the same key in the old format (which is rewritten), removed, looked for again and stored in the old format: the file,
though empty, still takes new-format packets only. -/
example (magic : Bytes → Str) (H : Digest) (hH : ∀ d, (H 2 d).length = 20) := C120_history_partial magic Nat.log2 (fun _ _ _ => rfl) (· < 4096) exGood H hH [] (by simp)
  [.store (exFile .new), .replace (exFile .old), .remove (exHistFp H), .remove (exHistFp H), .store (exFile .old)] _ ⟨[(exFile .new, exHistFp H)], some .new⟩
  (.cons (.store (.inl (exFile_ok magic .new)) (exHist_fp H .new) rfl)
    (.cons (.replace (x := (exFile .new, exHistFp H)) (before := []) (after := []) (.inl (exFile_ok magic .old)) (exHist_fp H .old) ⟨rfl, rfl, by simp⟩ (exReheaded .old .new))
      (.cons (.remove (x := (exFile .new, exHistFp H)) (before := []) (after := []) ⟨rfl, rfl, by simp⟩)
        (.cons (.removeMissing (by simp)) (.cons (.store (.inl (exFile_ok magic .old)) (exHist_fp H .old) (exReheaded .old .new)) (.nil _))))))

/-- Another key. -/
private def exKeyOctets' : Bytes := [4, 0, 0, 3, 233, 1, 0, 12, 0x0c, 0xa1, 0, 5, 17]
private def exFile' : Bytes := exPacket .new 6 13 exKeyOctets'

private theorem exKeyOctets'_ok : KeyWire (· < 4096) exKeyOctets' :=
  ⟨4, 1, [0, 0, 3, 233], .rsa 3233 17, by decide, rfl, .inl rfl, by simp [KeyMaterial.ints], by decide +kernel⟩

private theorem exFile'_ok (magic : Bytes → Str) : PublicKeyFile magic (· = .new) (· < 4096) exFile' :=
  ⟨exFile', [], [], [], [], ⟨.new, _, _, rfl, exKeyOctets'_ok, exHeader (n := 13) rfl (by decide) (by decide) (by decide), rfl⟩, ⟨[], by simp, rfl⟩, ⟨[], by simp, rfl⟩, ⟨[], by simp, rfl⟩,
    ⟨[], by simp, rfl⟩, by simp⟩

/-- If the two keys have different digits, removing the first removes the second. -/
example (magic : Bytes → Str) (H : Digest) (hH : ∀ d, (H 2 d).length = 20)
    (hne : lastEight (hexText (H 2 ([0x99] ++ beBytes 2 exKeyOctets'.length ++ exKeyOctets'))) ≠ lastEight (exHistFp H)) :=
  C120_later_keys_lost_refuted magic Nat.log2 (fun _ _ _ => rfl) (· < 4096) exGood H hH [] [(exFile', _)] (exFile .new, exHistFp H) (by
    intro y hy
    simp only [List.nil_append, List.mem_cons, List.not_mem_nil, or_false] at hy
    rcases hy with rfl | rfl
    · exact ⟨⟨_, .inl (exFile_ok magic .new)⟩, exHist_fp H .new⟩
    · exact ⟨⟨_, .inl (exFile'_ok magic)⟩, ⟨.new, 6, [UInt8.ofNat (0xc0 + 6), 13], exKeyOctets', [], [], .inl rfl, exHeader rfl (by decide) (by decide) (by decide), exKeyOctets'_ok, rfl, rfl⟩⟩) (by
    intro y hy
    rw [List.mem_singleton.mp hy]
    exact hne)

end Pgp.Props
