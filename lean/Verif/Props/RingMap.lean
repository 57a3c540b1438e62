import Verif.Props.Database
/-
Property theorem C106: a keyring as a mapping from ids to keys.
-/
namespace Pgp.Props
open Spec

theorem lastMatch_iff_mem (bs : List KeyBlock) (w : List Char) : (∃ b, lastMatch bs w = some b) ↔ w ∈ shortIds bs := by
  constructor
  · rintro ⟨b, hb⟩
    unfold lastMatch at hb
    unfold shortIds
    rw [List.mem_eraseDups, List.mem_map]
    have h1 := List.mem_of_find?_eq_some hb
    have h2 := List.find?_some hb
    simp only [KeyBlock.hasShort, beq_iff_eq] at h2
    exact ⟨b, by simpa using h1, h2⟩
  · intro h
    obtain ⟨b, hb, _⟩ := lastMatch_of_mem h
    exact ⟨b, hb⟩

theorem shortIds_idem {bs : List KeyBlock} {w : List Char} (h : w ∈ shortIds bs) : shortId w = w := by
  obtain ⟨b, _, rfl⟩ := List.mem_map.mp (List.mem_eraseDups.mp h)
  exact shortId_short

/-- The keyring after a history of operations, and the list of keys it stands for. -/
theorem ring_history {I : PacketInfo} {bs : List KeyBlock} (hw : ∀ b ∈ bs, b.WF I) {ops : List RingOp} (ho : ∀ op ∈ ops, op.WF I) {r : Keyring}
    (hr : Keyring.open I (ringOctets bs) false = .ok r) :
    InSync I (ringRun I r ops).2 (ListRing.run (ListRing.settle ⟨bs, none⟩) ops).2.keys := by
  obtain ⟨r', h1, h2, h3, h4⟩ := open_inSync hw false
  rw [hr] at h1
  cases h1
  have h5 := run_inSync ops h2 h4 ho
  have e : ListRing.settle ⟨bs, none⟩ = ⟨bs, r.fmt⟩ := by rw [h3]; simp [ListRing.settle]
  rw [e]
  exact h5.2.1

/-- C106: `items()` gives, after any history of operations on a keyring, each short id in the file once, with the key that a look-up of
it gives, which is the last one stored with that short id; `values()` gives the keys alone. -/
theorem C106_items {K : Type} (I : PacketInfo) (B : KeyBuilder K) (bs : List KeyBlock) (hw : ∀ b ∈ bs, b.WF I) (ops : List RingOp)
    (ho : ∀ op ∈ ops, op.WF I) (r : Keyring) (hr : Keyring.open I (ringOctets bs) false = .ok r) (keys : List KeyBlock)
    (hk : keys = (ListRing.run (ListRing.settle ⟨bs, none⟩) ops).2.keys) (make : KeyBlock → K)
    (hm : ∀ b ∈ keys, B.build b.packets = .ok (make b)) :
    ∃ its, (ringRun I r ops).2.items I B = .ok its ∧ its.map (·.1) = shortIds keys ∧
      (ringRun I r ops).2.values I B = .ok (its.map (·.2)) ∧
      ∀ x ∈ its, (ringRun I r ops).2.getKey I B x.1 = .ok x.2 ∧ ∃ b, lastMatch keys x.1 = some b ∧ x.2 = make b := by
  have hs := ring_history hw ho hr
  rw [← hk] at hs
  generalize (ringRun I r ops).2 = r' at hs
  have hv := values_inSync (B := B) hs make hm
  have hkey : ∀ l : List (List Char), (∀ s ∈ l, s ∈ shortIds keys) → ∃ its : List (List Char × K),
      (l.mapM fun k => do let key ← r'.getKey I B k; return (k, key)) = Except.ok its ∧ its.map (·.1) = l ∧
      l.mapM (r'.getKey I B) = .ok (its.map (·.2)) ∧
      ∀ x ∈ its, r'.getKey I B x.1 = .ok x.2 ∧ ∃ b, lastMatch keys x.1 = some b ∧ x.2 = make b := by
    intro l
    induction l with
    | nil => exact fun _ => ⟨[], rfl, rfl, rfl, by simp⟩
    | cons s l ih =>
      intro hl
      obtain ⟨its, i1, i2, i3, i4⟩ := ih fun x hx => hl x (by simp [hx])
      have hmem := hl s (by simp)
      obtain ⟨b, hb, _⟩ := lastMatch_of_mem hmem
      have hg := getKey_inSync (B := B) hs make hm s
      rw [shortIds_idem hmem, hb] at hg
      simp only at hg
      refine ⟨(s, make b) :: its, ?_, by simp [i2], ?_, ?_⟩
      · rw [List.mapM_cons, i1, hg]; rfl
      · rw [List.mapM_cons, i3, hg]; rfl
      · intro x hx
        rcases List.mem_cons.mp hx with rfl | hx
        · exact ⟨hg, b, hb, rfl⟩
        · exact i4 x hx
  have ht : tableKeys r'.table = shortIds keys := by
    rw [tableKeys_eq, hs.table, entries_ids]; rfl
  obtain ⟨its, i1, i2, i3, i4⟩ := hkey (shortIds keys) fun _ h => h
  refine ⟨its, ?_, i2, ?_, i4⟩
  · unfold Keyring.items; rw [ht]; exact i1
  · unfold Keyring.values; rw [ht]; exact i3

/-! ### A concrete keyring: two keys, and a third one added -/

private def mI : PacketInfo := ⟨fun _ => .ok (), fun p => .ok (p.content.map (fun b => Char.ofNat b.toNat))⟩
private def mBlock (c : UInt8) : KeyBlock :=
  ⟨⟨.old, 6, List.replicate 16 c⟩, [⟨.old, 13, [65, 66]⟩, ⟨.new, 2, [4]⟩], List.replicate 16 (Char.ofNat c.toNat)⟩
private theorem mBlock_wf (c : UInt8) : (mBlock c).WF mI := by
  refine ⟨Or.inl rfl, ?_, ?_, ?_, fun _ _ => rfl⟩
  · simp [mI, mBlock]
  · intro p hp
    simp only [mBlock, List.mem_cons, List.not_mem_nil, or_false] at hp
    rcases hp with rfl | rfl <;> decide
  · intro p hp
    simp only [mBlock, KeyBlock.packets, List.mem_cons, List.not_mem_nil, or_false] at hp
    rcases hp with rfl | rfl | rfl
    · exact Or.inr ⟨rfl, (by decide : (6 : Nat) < 16), by simp⟩
    · exact Or.inr ⟨rfl, by decide, by decide⟩
    · exact Or.inl ⟨rfl, by decide, by decide, by decide⟩
private def mNew : SpecKey := ⟨List.replicate 40 'B', fun _ => mBlock 66⟩
private theorem mOps_wf : ∀ op ∈ [RingOp.add mNew], op.WF mI := by
  intro op hop
  rw [List.mem_singleton.mp hop]
  exact (⟨fun _ => mBlock_wf _, fun _ => show shortId (mBlock 66).keyId = shortId (List.replicate 40 'B') by decide, by decide⟩ : mNew.WF mI)
private def mB : KeyBuilder (List RawPacket) := ⟨.ok, fun _ => [], id⟩
private theorem mRing_wf : ∀ b ∈ [mBlock 65, mBlock 67], b.WF mI := fun b hb => by
  simp only [List.mem_cons, List.not_mem_nil, or_false] at hb
  rcases hb with rfl | rfl <;> exact mBlock_wf _
private theorem mOpen : ∃ r, Keyring.open mI (ringOctets [mBlock 65, mBlock 67]) false = .ok r := by
  obtain ⟨r, h, _⟩ := open_inSync mRing_wf false
  exact ⟨r, h⟩

example : ∃ r its, Keyring.open mI (ringOctets [mBlock 65, mBlock 67]) false = .ok r ∧ (ringRun mI r [.add mNew]).2.items mI mB = .ok its ∧
    its.map (·.1) = [List.replicate 8 'A', List.replicate 8 'C', List.replicate 8 'B'] := by
  obtain ⟨r, hr⟩ := mOpen
  obtain ⟨its, h1, h2, _⟩ := C106_items mI mB _ mRing_wf [.add mNew] mOps_wf r hr _ rfl (fun b => b.packets) (fun _ _ => rfl)
  exact ⟨r, its, hr, h1, h2.trans (by decide)⟩

/-- C106: for texts of at most eight characters, being in the keyring means that a look-up finds a key. -/
theorem C106_short_membership_partial (I : PacketInfo) (bs : List KeyBlock) (hw : ∀ b ∈ bs, b.WF I) (ops : List RingOp)
    (ho : ∀ op ∈ ops, op.WF I) (r : Keyring) (hr : Keyring.open I (ringOctets bs) false = .ok r) (w : List Char) (h8 : w.length ≤ 8) :
    (ringRun I r ops).2.contains w = true ↔ ∃ ps, (ringRun I r ops).2.get I w = .ok ps := by
  have hs := ring_history hw ho hr
  generalize (ListRing.run (ListRing.settle ⟨bs, none⟩) ops).2.keys = keys at hs
  generalize (ringRun I r ops).2 = r' at hs
  have ht : tableKeys r'.table = shortIds keys := by
    rw [tableKeys_eq, hs.table, entries_ids]; rfl
  have hw8 : shortId w = w := by
    unfold shortId
    rw [show w.length - 8 = 0 by omega, List.drop_zero]
  unfold Keyring.contains
  rw [ht, decide_eq_true_iff, ← lastMatch_iff_mem, inSync_get hs, hw8]
  cases lastMatch keys w with
  | none => simp
  | some b => simp

example : ∃ r, Keyring.open mI (ringOctets [mBlock 65, mBlock 67]) false = .ok r ∧
    ((ringRun mI r [.add mNew]).2.contains (List.replicate 8 'B') = true ↔ ∃ ps, (ringRun mI r [.add mNew]).2.get mI (List.replicate 8 'B') = .ok ps) := by
  obtain ⟨r, hr⟩ := mOpen
  exact ⟨r, hr, C106_short_membership_partial mI _ mRing_wf _ mOps_wf r hr _ (by decide)⟩

/-- C106 (refuted): a full key id or fingerprint, or any text longer than eight characters, is never in the keyring, although the look-up of the
ids of its keys succeeds. -/
theorem C106_long_membership_refuted (I : PacketInfo) (bs : List KeyBlock) (hw : ∀ b ∈ bs, b.WF I) (ops : List RingOp)
    (ho : ∀ op ∈ ops, op.WF I) (r : Keyring) (hr : Keyring.open I (ringOctets bs) false = .ok r) (keys : List KeyBlock)
    (hk : keys = (ListRing.run (ListRing.settle ⟨bs, none⟩) ops).2.keys) :
    (∀ w, w.length > 8 → (ringRun I r ops).2.contains w = false) ∧
    ∀ b ∈ keys, ∀ w, shortId w = shortId b.keyId → ∃ ps, (ringRun I r ops).2.get I w = .ok ps := by
  have hs := ring_history hw ho hr
  rw [← hk] at hs
  generalize (ringRun I r ops).2 = r' at hs
  have ht : tableKeys r'.table = shortIds keys := by
    rw [tableKeys_eq, hs.table, entries_ids]; rfl
  constructor
  · intro w h8
    unfold Keyring.contains
    rw [ht, decide_eq_false_iff_not]
    intro hm
    have := congrArg List.length (shortIds_idem hm)
    unfold shortId at this
    rw [List.length_drop] at this
    omega
  · intro b hb w hwb
    rw [inSync_get hs, hwb]
    have : shortId b.keyId ∈ shortIds keys := List.mem_eraseDups.mpr (List.mem_map.mpr ⟨b, hb, rfl⟩)
    obtain ⟨c, hc, _⟩ := lastMatch_of_mem this
    rw [hc]
    exact ⟨_, rfl⟩

/-- The fingerprint of the key just added. -/
example : ∃ r, Keyring.open mI (ringOctets [mBlock 65, mBlock 67]) false = .ok r ∧
    (ringRun mI r [.add mNew]).2.contains (List.replicate 40 'B') = false ∧ ∃ ps, (ringRun mI r [.add mNew]).2.get mI (List.replicate 40 'B') = .ok ps := by
  obtain ⟨r, hr⟩ := mOpen
  obtain ⟨h1, h2⟩ := C106_long_membership_refuted mI _ mRing_wf _ mOps_wf r hr _ rfl
  exact ⟨r, hr, h1 _ (by decide), h2 (mBlock 66) (by decide) _ (by decide)⟩

/-- C106 (refuted): going through a keyring with `for` raises TypeError, whatever it holds. -/
theorem C106_iteration_refuted (r : Keyring) : forIn r.iter = .error .typeError := rfl

end Pgp.Props
