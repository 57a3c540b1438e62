import Verif.Lemmas.Keyring
/-
Property theorems C33 (keyring files), C34 (secret keys), C56 (resource detection). (C63 is in Props/Crash.)
-/
namespace Pgp.Props
open Spec

/-! ## C33 -/

/-- A concrete interpretation: every packet parses; the key id is read off the content. -/
private def exI : PacketInfo := ⟨fun _ => .ok (), fun p => .ok (p.content.map (fun b => Char.ofNat b.toNat))⟩

private def exBlock (c : UInt8) : KeyBlock :=
  ⟨⟨.old, 6, List.replicate 16 c⟩, [⟨.old, 13, [65, 66]⟩, ⟨.new, 2, [4]⟩], List.replicate 16 (Char.ofNat c.toNat)⟩

private theorem exBlock_wf (c : UInt8) : (exBlock c).WF exI := by
  refine ⟨Or.inl rfl, ?_, ?_, ?_, fun _ _ => rfl⟩
  · simp [exI, exBlock]
  · intro p hp
    simp only [exBlock, List.mem_cons, List.not_mem_nil, or_false] at hp
    rcases hp with rfl | rfl <;> decide
  · intro p hp
    simp only [exBlock, KeyBlock.packets, List.mem_cons, List.not_mem_nil, or_false] at hp
    rcases hp with rfl | rfl | rfl
    · exact Or.inr ⟨rfl, (by decide : (6 : Nat) < 16), by simp⟩
    · exact Or.inr ⟨rfl, by decide, by decide⟩
    · exact Or.inl ⟨rfl, by decide, by decide, by decide⟩

/-- Three keys in a file, and a key with the id of the middle one. -/
private def exNew : SpecKey := ⟨List.replicate 40 'B', fun _ => exBlock 66⟩

private theorem exRing_wf : ∀ b ∈ [exBlock 65] ++ exBlock 66 :: [exBlock 67], b.WF exI := by
  intro b hb
  simp only [List.cons_append, List.nil_append, List.mem_cons, List.not_mem_nil, or_false] at hb
  rcases hb with rfl | rfl | rfl <;> exact exBlock_wf _

private theorem exRing_wf2 : ∀ b ∈ [exBlock 65] ++ [exBlock 66], b.WF exI := fun b hb =>
  exRing_wf b (by simp only [List.cons_append, List.nil_append, List.mem_cons, List.not_mem_nil, or_false] at hb ⊢; tauto)

private theorem exNew_wf : exNew.WF exI :=
  ⟨fun _ => exBlock_wf _, fun _ => show shortId (exBlock 66).keyId = shortId (List.replicate 40 'B') by decide, by decide⟩

/-- C33: opening a keyring file that holds any list of keys works, and looking up a fingerprint or key id gives all the packets of
the last key in the file whose id has the same last eight characters; KeyError if there is none. -/
theorem C33_open_and_get (I : PacketInfo) (bs : List KeyBlock) (hw : ∀ b ∈ bs, b.WF I) (ro : Bool) :
    ∃ r, Keyring.open I (ringOctets bs) ro = .ok r ∧ ∀ fp, r.get I fp =
      match lastMatch bs (shortId fp) with
      | none => .error .keyError
      | some b => .ok b.packets := by
  obtain ⟨r, h1, h2, _⟩ := open_inSync hw ro
  exact ⟨r, h1, inSync_get h2⟩

example := C33_open_and_get exI _ exRing_wf false

/-- C33, every history: after any sequence of additions, deletions and updates on a keyring opened on any list of keys, every
operation's outcome, the file's content and every later look-up are those of the list operations in the specification
(`ListRing.step`): adding appends; deleting or updating cuts the list at the last key with that short id. -/
theorem C33_history (I : PacketInfo) (bs : List KeyBlock) (hw : ∀ b ∈ bs, b.WF I) (ops : List RingOp) (ho : ∀ op ∈ ops, op.WF I) :
    ∃ r, Keyring.open I (ringOctets bs) false = .ok r ∧
      let spec := ListRing.run (ListRing.settle ⟨bs, none⟩) ops
      (ringRun I r ops).1 = spec.1 ∧ (ringRun I r ops).2.file = ringOctets spec.2.keys ∧
      ∀ fp, (ringRun I r ops).2.get I fp =
        match lastMatch spec.2.keys (shortId fp) with
        | none => .error .keyError
        | some b => .ok b.packets := by
  obtain ⟨r, h1, h2, h3, h4⟩ := open_inSync hw false
  have h5 := run_inSync ops h2 h4 ho
  have e : ListRing.settle ⟨bs, none⟩ = ⟨bs, r.fmt⟩ := by rw [h3]; simp [ListRing.settle]
  refine ⟨r, h1, ?_⟩
  rw [e]
  exact ⟨h5.1, h5.2.1.file, inSync_get h5.2.1⟩

example := C33_history exI _ exRing_wf [.add exNew, .delete (List.replicate 40 'A'), .update exNew] (by
  intro op h
  simp only [List.mem_cons, List.not_mem_nil, or_false] at h
  rcases h with rfl | rfl | rfl
  · exact exNew_wf
  · exact trivial
  · exact exNew_wf)

/-- C33: adding a key to a writable keyring appends its packets to the file and changes nothing else. -/
theorem C33_add_appends (I : PacketInfo) (bs : List KeyBlock) (hw : ∀ b ∈ bs, b.WF I) (k : SpecKey) (hk : k.WF I) (r : Keyring)
    (hr : Keyring.open I (ringOctets bs) false = .ok r) :
    (r.add I k.toNew).1 = .ok () ∧ (r.add I k.toNew).2.file = ringOctets bs ++ (k.block r.fmt).octets ∧
      (∀ fp, shortId fp = shortId k.fingerprint → (r.add I k.toNew).2.get I fp = .ok (k.block r.fmt).packets) ∧
      (∀ fp, shortId fp ≠ shortId k.fingerprint → (r.add I k.toNew).2.get I fp = r.get I fp) := by
  obtain ⟨r', h1, h2, h3, h4⟩ := open_inSync hw false
  rw [hr] at h1
  cases h1
  obtain ⟨bs', r', h5, h6, h7, h8⟩ := step_inSync h2 h4 (.add k) hk
  simp only [ListRing.step, ListRing.settle, ringStep, Prod.mk.injEq, ListRing.mk.injEq] at h5 h6
  obtain ⟨h5, rfl, h9⟩ := h5
  have hshort : (k.block r.fmt).hasShort (shortId k.fingerprint) = true := by
    simp [KeyBlock.hasShort, hk.short]
  refine ⟨h5.symm, ?_, ?_, ?_⟩
  · rw [h6, h7.file, ringOctets_append]; simp [ringOctets]
  · intro fp hfp
    rw [h6, inSync_get h7, hfp]
    simp [lastMatch, hshort]
  · intro fp hfp
    rw [h6, inSync_get h7, inSync_get h2]
    have : (k.block r.fmt).hasShort (shortId fp) = false := by
      simp only [KeyBlock.hasShort, hk.short, beq_eq_false_iff_ne, ne_eq]
      exact fun h => hfp h.symm
    simp [lastMatch, this]

/-- The file can be opened by `C33_open_and_get`; so too in the examples below. -/
example (r : Keyring) (hr : Keyring.open exI (ringOctets ([exBlock 65] ++ exBlock 66 :: [exBlock 67])) false = .ok r) := C33_add_appends exI _ exRing_wf exNew exNew_wf r hr

/-- C33 refuted (duplicates): a second add of the same key is never refused; the file then holds the key twice. -/
theorem C33_duplicate_add_refuted (I : PacketInfo) (bs : List KeyBlock) (hw : ∀ b ∈ bs, b.WF I) (k : SpecKey) (hk : k.WF I) (r : Keyring)
    (hr : Keyring.open I (ringOctets bs) false = .ok r) :
    (ringRun I r [.add k, .add k]).1 = [.ok (), .ok ()] ∧
    ∃ f g, (ringRun I r [.add k, .add k]).2.file = ringOctets bs ++ (k.block f).octets ++ (k.block g).octets := by
  obtain ⟨r', h1, h2, h3, h4⟩ := open_inSync hw false
  rw [hr] at h1
  cases h1
  have h5 := run_inSync [.add k, .add k] h2 h4 (by simp [RingOp.WF, hk])
  refine ⟨?_, ?_⟩
  · rw [h5.1]; simp [ListRing.run, ListRing.step]
  · simp only [ListRing.run, ListRing.step, ListRing.settle] at h5
    have hf := h5.2.1.file
    rw [ringOctets_append, ringOctets_append] at hf
    simp only [ringOctets, List.flatMap_cons, List.flatMap_nil, List.append_nil] at hf
    exact ⟨_, _, hf⟩

example (r : Keyring) (hr : Keyring.open exI (ringOctets ([exBlock 65] ++ exBlock 66 :: [exBlock 67])) false = .ok r) := C33_duplicate_add_refuted exI _ exRing_wf exNew exNew_wf r hr

/-- C33 (partial): deleting a key removes that key only — if it is the last key in the file. Otherwise every key after it is
lost (`C33_delete_drops_later_keys_refuted`). -/
theorem C33_delete_last_partial (I : PacketInfo) (bs : List KeyBlock) (b : KeyBlock) (hw : ∀ c ∈ bs ++ [b], c.WF I) (fp : List Char)
    (hfp : shortId b.keyId = shortId fp) (r : Keyring) (hr : Keyring.open I (ringOctets (bs ++ [b])) false = .ok r) :
    (r.delete I fp).1 = .ok () ∧ (r.delete I fp).2.file = ringOctets bs ∧
      ∀ q, (r.delete I fp).2.get I q = match lastMatch bs (shortId q) with
        | none => .error .keyError
        | some b => .ok b.packets := by
  obtain ⟨r', h1, h2, h3, h4⟩ := open_inSync hw false
  rw [hr] at h1
  cases h1
  obtain ⟨bs', r', h5, h6, h7, h8⟩ := step_inSync h2 h4 (.delete fp) trivial
  have hs : b.hasShort (shortId fp) = true := by simp [KeyBlock.hasShort, hfp]
  simp only [ListRing.step, lastMatch, List.reverse_append, List.reverse_cons, List.reverse_nil, List.nil_append, List.cons_append,
    List.find?_cons_of_pos hs, ringStep, Prod.mk.injEq, ListRing.settle, ListRing.mk.injEq] at h5 h6
  obtain ⟨h5, h9, _⟩ := h5
  have hb : beforeLast (bs ++ [b]) (shortId fp) = bs := by simp [beforeLast, hs]
  rw [hb] at h9
  subst h9
  exact ⟨h5.symm, by rw [h6, h7.file], by rw [h6]; exact inSync_get h7⟩

example (r : Keyring) (hr : Keyring.open exI (ringOctets ([exBlock 65] ++ [exBlock 66])) false = .ok r) :=
  C33_delete_last_partial exI [exBlock 65] (exBlock 66) exRing_wf2 (List.replicate 40 'B') (by decide) r hr

/-- C33 refuted (deletion): every key stored after the deleted one is deleted too: the file is cut at the deleted key. -/
theorem C33_delete_drops_later_keys_refuted (I : PacketInfo) (before after : List KeyBlock) (b : KeyBlock)
    (hw : ∀ c ∈ before ++ b :: after, c.WF I) (fp : List Char) (hfp : shortId b.keyId = shortId fp)
    (hafter : ∀ c ∈ after, shortId c.keyId ≠ shortId fp) (r : Keyring)
    (hr : Keyring.open I (ringOctets (before ++ b :: after)) false = .ok r) :
    (r.delete I fp).1 = .ok () ∧ (r.delete I fp).2.file = ringOctets before ∧
      ∀ c ∈ after, (∀ d ∈ before, shortId d.keyId ≠ shortId c.keyId) →
        (∃ ps, r.get I c.keyId = .ok ps) ∧ (r.delete I fp).2.get I c.keyId = .error .keyError := by
  obtain ⟨r', h1, h2, h3, h4⟩ := open_inSync hw false
  rw [hr] at h1
  cases h1
  obtain ⟨bs', r', h5, h6, h7, h8⟩ := step_inSync h2 h4 (.delete fp) trivial
  have hs : b.hasShort (shortId fp) = true := by simp [KeyBlock.hasShort, hfp]
  have ha : ∀ c ∈ after.reverse, (! c.hasShort (shortId fp)) = true := by
    intro c hc; simpa [KeyBlock.hasShort] using hafter c (by simpa using hc)
  have ha' : ∀ c ∈ after.reverse, ¬ c.hasShort (shortId fp) = true := by
    intro c hc; simpa using ha c hc
  have hlm : lastMatch (before ++ b :: after) (shortId fp) = some b := by
    unfold lastMatch
    rw [List.reverse_append, List.reverse_cons, List.append_assoc, List.find?_append,
      List.find?_eq_none.mpr ha', Option.none_or, List.cons_append, List.nil_append, List.find?_cons_of_pos hs]
  have hb : beforeLast (before ++ b :: after) (shortId fp) = before := by
    simp only [beforeLast, List.reverse_append, List.reverse_cons, List.append_assoc, List.nil_append, List.cons_append]
    rw [List.dropWhile_append_of_pos ha, List.dropWhile_cons_of_neg (by simp [hs])]
    simp
  simp only [ListRing.step, hlm, ringStep, Prod.mk.injEq, ListRing.settle, ListRing.mk.injEq] at h5 h6
  obtain ⟨h5, h9, _⟩ := h5
  rw [hb] at h9
  subst h9
  refine ⟨h5.symm, by rw [h6, h7.file], ?_⟩
  intro c hc hd
  constructor
  · rw [inSync_get h2]
    rcases split_last (before ++ b :: after) (shortId c.keyId) with ⟨_, h⟩ | ⟨e, h, _⟩
    · have := h c (by simp [hc])
      simp [KeyBlock.hasShort] at this
    · rw [h]; exact ⟨_, rfl⟩
  · rw [h6, inSync_get h7]
    rcases split_last before (shortId c.keyId) with ⟨h, _⟩ | ⟨e, h, h', h'', _⟩
    · rw [h]
    · exact absurd (by simpa [KeyBlock.hasShort] using h') (hd e (by rw [h'']; simp))

example (r : Keyring) (hr : Keyring.open exI (ringOctets ([exBlock 65] ++ exBlock 66 :: [exBlock 67])) false = .ok r) :=
  C33_delete_drops_later_keys_refuted exI [exBlock 65] [exBlock 67] (exBlock 66) exRing_wf (List.replicate 40 'B') (by decide) (by decide) r hr

/-- C33 (partial): updating the last key in the file replaces that key only. -/
theorem C33_update_last_partial (I : PacketInfo) (bs : List KeyBlock) (b : KeyBlock) (hw : ∀ c ∈ bs ++ [b], c.WF I) (k : SpecKey) (hk : k.WF I)
    (hfp : shortId b.keyId = shortId k.fingerprint) (r : Keyring) (hr : Keyring.open I (ringOctets (bs ++ [b])) false = .ok r) :
    (r.update I k.toNew).1 = .ok () ∧ (r.update I k.toNew).2.file = ringOctets (bs ++ [k.block (some b.head.fmt)]) := by
  obtain ⟨r', h1, h2, h3, h4⟩ := open_inSync hw false
  rw [hr] at h1
  cases h1
  obtain ⟨bs', r', h5, h6, h7, h8⟩ := step_inSync h2 h4 (.update k) hk
  have hs : b.hasShort (shortId k.fingerprint) = true := by simp [KeyBlock.hasShort, hfp]
  simp only [ListRing.step, lastMatch, List.reverse_append, List.reverse_cons, List.reverse_nil, List.nil_append, List.cons_append,
    List.find?_cons_of_pos hs, ringStep, Prod.mk.injEq, ListRing.settle, ListRing.mk.injEq] at h5 h6
  obtain ⟨h5, h9, _⟩ := h5
  have hb : beforeLast (bs ++ [b]) (shortId k.fingerprint) = bs := by simp [beforeLast, hs]
  rw [hb] at h9
  subst h9
  exact ⟨h5.symm, by rw [h6, h7.file]⟩

example (r : Keyring) (hr : Keyring.open exI (ringOctets ([exBlock 65] ++ [exBlock 66])) false = .ok r) :=
  C33_update_last_partial exI [exBlock 65] (exBlock 66) exRing_wf2 exNew exNew_wf (by decide) r hr

/-- C33 refuted (update): every key stored after the updated one is lost. -/
theorem C33_update_drops_later_keys_refuted (I : PacketInfo) (before after : List KeyBlock) (b : KeyBlock)
    (hw : ∀ c ∈ before ++ b :: after, c.WF I) (k : SpecKey) (hk : k.WF I) (hfp : shortId b.keyId = shortId k.fingerprint)
    (hafter : ∀ c ∈ after, shortId c.keyId ≠ shortId k.fingerprint) (r : Keyring)
    (hr : Keyring.open I (ringOctets (before ++ b :: after)) false = .ok r) :
    (r.update I k.toNew).1 = .ok () ∧ (r.update I k.toNew).2.file = ringOctets (before ++ [k.block (some b.head.fmt)]) := by
  obtain ⟨r', h1, h2, h3, h4⟩ := open_inSync hw false
  rw [hr] at h1
  cases h1
  obtain ⟨bs', r', h5, h6, h7, h8⟩ := step_inSync h2 h4 (.update k) hk
  have hs : b.hasShort (shortId k.fingerprint) = true := by simp [KeyBlock.hasShort, hfp]
  have ha : ∀ c ∈ after.reverse, (! c.hasShort (shortId k.fingerprint)) = true := by
    intro c hc; simpa [KeyBlock.hasShort] using hafter c (by simpa using hc)
  have ha' : ∀ c ∈ after.reverse, ¬ c.hasShort (shortId k.fingerprint) = true := by
    intro c hc; simpa using ha c hc
  have hlm : lastMatch (before ++ b :: after) (shortId k.fingerprint) = some b := by
    unfold lastMatch
    rw [List.reverse_append, List.reverse_cons, List.append_assoc, List.find?_append,
      List.find?_eq_none.mpr ha', Option.none_or, List.cons_append, List.nil_append, List.find?_cons_of_pos hs]
  have hb : beforeLast (before ++ b :: after) (shortId k.fingerprint) = before := by
    simp only [beforeLast, List.reverse_append, List.reverse_cons, List.append_assoc, List.nil_append, List.cons_append]
    rw [List.dropWhile_append_of_pos ha, List.dropWhile_cons_of_neg (by simp [hs])]
    simp
  simp only [ListRing.step, hlm, ringStep, Prod.mk.injEq, ListRing.settle, ListRing.mk.injEq] at h5 h6
  obtain ⟨h5, h9, _⟩ := h5
  rw [hb] at h9
  subst h9
  exact ⟨h5.symm, by rw [h6, h7.file]⟩

example (r : Keyring) (hr : Keyring.open exI (ringOctets ([exBlock 65] ++ exBlock 66 :: [exBlock 67])) false = .ok r) :=
  C33_update_drops_later_keys_refuted exI [exBlock 65] [exBlock 67] (exBlock 66) exRing_wf exNew exNew_wf (by decide) (by decide) r hr

/-- C33: a read-only keyring refuses every change with TypeError and keeps its content. -/
theorem C33_read_only (I : PacketInfo) (file : Bytes) (r : Keyring) (hr : Keyring.open I file true = .ok r) (k : NewKey) (fp : List Char) :
    r.add I k = (.error .typeError, r) ∧ r.update I k = (.error .typeError, r) ∧ r.delete I fp = (.error .typeError, r) ∧
      r.file = file := by
  unfold Keyring.open Keyring.updateTable at hr
  obtain ⟨⟨t, f⟩, _, h⟩ := except_bind_eq_ok.mp hr
  cases h
  simp [Keyring.add, Keyring.update, Keyring.delete]

example : ∃ r, Keyring.open exI (ringOctets ([exBlock 65] ++ exBlock 66 :: [exBlock 67])) true = .ok r :=
  (C33_open_and_get exI _ exRing_wf true).imp fun _ h => h.1

/-- C33: updating or deleting a key that is not there raises KeyError and changes nothing. -/
theorem C33_missing_key (I : PacketInfo) (bs : List KeyBlock) (hw : ∀ b ∈ bs, b.WF I) (r : Keyring)
    (hr : Keyring.open I (ringOctets bs) false = .ok r) (k : NewKey) (h : ∀ b ∈ bs, shortId b.keyId ≠ shortId k.fingerprint) :
    r.update I k = (.error .keyError, r) ∧ r.delete I k.fingerprint = (.error .keyError, r) := by
  obtain ⟨r', h1, h2, h3, h4⟩ := open_inSync hw false
  rw [hr] at h1
  cases h1
  have hn : tableGet r.table (lastN k.fingerprint 8) = none := by
    rw [h2.table, shortId_eq]
    exact entries_none (fun b hb => by simpa [KeyBlock.hasShort] using h b hb)
  simp [Keyring.update, Keyring.delete, h4, hn]

example (r : Keyring) (hr : Keyring.open exI (ringOctets ([exBlock 65] ++ exBlock 66 :: [exBlock 67])) false = .ok r) :=
  C33_missing_key exI _ exRing_wf r hr ⟨List.replicate 40 'D', fun _ => .ok []⟩ (by decide)

/-- C33 refuted (look-up by fingerprint): the look-up only compares the last eight characters, so asking for one fingerprint can
return another key. -/
theorem C33_short_id_collision_refuted (I : PacketInfo) (bs : List KeyBlock) (b : KeyBlock) (hw : ∀ c ∈ bs ++ [b], c.WF I)
    (fp : List Char) (hne : fp ≠ b.keyId) (hs : shortId fp = shortId b.keyId) (ro : Bool) (r : Keyring)
    (hr : Keyring.open I (ringOctets (bs ++ [b])) ro = .ok r) : r.get I fp = .ok b.packets := by
  have _ := hne
  obtain ⟨r', h1, h2, h3, h4⟩ := open_inSync hw ro
  rw [hr] at h1
  cases h1
  rw [inSync_get h2, hs]
  simp [lastMatch, KeyBlock.hasShort]

example (r : Keyring) (hr : Keyring.open exI (ringOctets ([exBlock 65] ++ [exBlock 66])) false = .ok r) :=
  C33_short_id_collision_refuted exI [exBlock 65] (exBlock 66) exRing_wf2 (List.replicate 40 'B') (by decide) (by decide) false r hr

/-- C33: a keyring file that does not exist is never created: with `force` the constructor raises TypeError, without it
RuntimeError. -/
theorem C33_create (force : Bool) : Keyring.create force = .error (if force then .typeError else .runtimeError) := by
  cases force <;> rfl

/-! ## C34 -/

/-- C34 refuted: whatever the resources, a secret key is stored in (deleted from, updated in) exactly the resource a public key
would be: the first one *not* marked secret; if there is none nothing is stored, without an error. -/
theorem C34_secret_key_goes_to_public_resource_refuted (flags : List Bool) :
    ∃ r, chooseResource .secretKey flags = .ok r ∧ chooseResource .publicKey flags = .ok r ∧
      (∀ i, r = some i → flags[i]? = some false ∧ ∀ j < i, flags[j]? = some true) ∧
      (r = none → ∀ f ∈ flags, f = true) := by
  refine ⟨flags.findIdx? (fun s => !s), rfl, rfl, ?_, ?_⟩
  · intro i hi
    rw [List.findIdx?_eq_some_iff_getElem] at hi
    obtain ⟨h, h1, h2⟩ := hi
    refine ⟨by rw [List.getElem?_eq_getElem h]; simpa using h1, fun j hj => ?_⟩
    rw [List.getElem?_eq_getElem (by omega)]
    simpa using h2 j hj
  · intro h f hf
    rw [List.findIdx?_eq_none_iff] at h
    simpa using h f hf

/-- C34 (partial): public keys go to the first resource not marked secret. -/
theorem C34_public_key_partial (before : List Bool) (after : List Bool) (h : ∀ f ∈ before, f = true) :
    chooseResource .publicKey (before ++ false :: after) = .ok (some before.length) := by
  have : (before ++ false :: after).findIdx? (fun s => !s) = some before.length := by
    rw [List.findIdx?_eq_some_iff_getElem]
    refine ⟨by simp, by simp, fun j hj => ?_⟩
    rw [List.getElem_append_left hj]
    simp [h _ (List.getElem_mem hj)]
  simp [chooseResource, KeyClass.isPublicInstance, this]

example : chooseResource .secretKey [true, false] = .ok (some 1) := by decide

/-! ## C56 -/

private theorem keyring_prefix : "gnupg-keyring:".toList = ['g', 'n', 'u', 'p', 'g', '-', 'k', 'e', 'y', 'r', 'i', 'n', 'g', ':'] := by decide
private theorem keybox_prefix : "gnupg-kbx:".toList = ['g', 'n', 'u', 'p', 'g', '-', 'k', 'b', 'x', ':'] := by decide

/-- C56 refuted: `gnupg-keyring:` is recognised but only twelve of its fourteen characters are removed, so another file is used. -/
theorem C56_keyring_prefix_refuted (path : List Char) (content : List Char → Option Bytes) :
    getResource ("gnupg-keyring:".toList ++ path) content = (.keyring, 'g' :: ':' :: path) := by
  unfold getResource
  rw [keyring_prefix]
  rfl

/-- C56 refuted: `gnupg-kbx:` has ten characters and eleven are removed. -/
theorem C56_keybox_prefix_refuted (c : Char) (path : List Char) (content : List Char → Option Bytes) :
    getResource ("gnupg-kbx:".toList ++ c :: path) content = (.keybox, path) := by
  unfold getResource
  rw [keyring_prefix, keybox_prefix]
  rfl

/-- C56 refuted: an existing empty file (such as a fresh keyring) is taken for a GDBM database. -/
theorem C56_empty_file_refuted (name : List Char) (content : List Char → Option Bytes) (h : content name = some [])
    (h1 : startsWith name "gnupg-keyring:".toList = false) (h2 : startsWith name "gnupg-kbx:".toList = false) :
    getResource name content = (.gdbm, name) := by
  have h3 : isInfix [] gdbmMagic = true := by decide
  unfold getResource
  simp only [h1, h2, h, Bool.false_eq_true, if_false, List.take_nil, h3, if_true]

example : startsWith "/home/u/.gnupg/pubring.gpg".toList "gnupg-keyring:".toList = false ∧
    startsWith "/home/u/.gnupg/pubring.gpg".toList "gnupg-kbx:".toList = false := by decide

/-- C56: an unprefixed file of at least four octets is a GDBM database iff its first four octets are a stretch of the eight magic
octets; otherwise a keybox iff it has the keybox marks; otherwise (or if it cannot be opened) a keyring. -/
theorem C56_detection (name : List Char) (content : List Char → Option Bytes)
    (h1 : startsWith name "gnupg-keyring:".toList = false) (h2 : startsWith name "gnupg-kbx:".toList = false) :
    (content name = none → getResource name content = (.keyring, name)) ∧
    ∀ d, content name = some d → 4 ≤ d.length →
      (getResource name content = (.gdbm, name) ↔ d.take 4 ∈ ([[0x13, 0x57, 0x9a, 0xce], [0x57, 0x9a, 0xce, 0xce], [0x9a, 0xce, 0xce, 0x9a],
        [0xce, 0xce, 0x9a, 0x57], [0xce, 0x9a, 0x57, 0x13]] : List Bytes)) ∧
      (d.take 4 ∉ ([[0x13, 0x57, 0x9a, 0xce], [0x57, 0x9a, 0xce, 0xce], [0x9a, 0xce, 0xce, 0x9a],
        [0xce, 0xce, 0x9a, 0x57], [0xce, 0x9a, 0x57, 0x13]] : List Bytes) →
        getResource name content = (if d[4]? = some 1 ∧ (d.drop 8).take 4 = [0x4b, 0x42, 0x58, 0x66] then .keybox else .keyring, name)) := by
  refine ⟨fun h => by unfold getResource; simp only [h1, h2, h, Bool.false_eq_true, if_false], ?_⟩
  intro d hd hlen
  have hin : isInfix (d.take 4) gdbmMagic = true ↔ d.take 4 ∈ ([[0x13, 0x57, 0x9a, 0xce], [0x57, 0x9a, 0xce, 0xce], [0x9a, 0xce, 0xce, 0x9a],
        [0xce, 0xce, 0x9a, 0x57], [0xce, 0x9a, 0x57, 0x13]] : List Bytes) := by
    have hl : (d.take 4).length = 4 := by simp; omega
    generalize d.take 4 = w at hl
    match w, hl with
    | [a, b, c, e], _ =>
      simp [isInfix, gdbmMagic, List.range, List.range.loop]
      constructor
      · rintro (h | h | h | h | h) <;> simp [← h]
      · rintro (h | h | h | h | h) <;> simp [h]
  have hkbx : (((d.drop 4).take 4).take 1 = [1]) ↔ d[4]? = some 1 := by
    have : ((d.drop 4).take 4).take 1 = (d.drop 4).take 1 := by rw [List.take_take]; rfl
    rw [this]
    cases hd4 : d.drop 4 with
    | nil =>
      have : d[4]? = none := by
        rw [List.getElem?_eq_none]; rw [List.drop_eq_nil_iff] at hd4; exact hd4
      simp [this]
    | cons x xs =>
      have : d[4]? = some x := by
        have := congrArg (fun l => l[0]?) hd4
        simpa using this
      simp [this]
  unfold getResource
  simp only [h1, h2, hd, Bool.false_eq_true, if_false]
  constructor
  · by_cases hm : isInfix (d.take 4) gdbmMagic = true
    · simp only [hm, if_true, true_iff]; exact hin.mp hm
    · rw [if_neg hm]
      constructor
      · intro h; split at h <;> cases h
      · intro h; exact absurd (hin.mpr h) hm
  · intro hm
    rw [if_neg (fun h => hm (hin.mp h))]
    simp only [hkbx]
    split <;> rfl

example := C56_detection "/home/u/.gnupg/pubring.gpg".toList (fun _ => some [0x99, 1, 2, 3, 4]) (by decide) (by decide)

end Pgp.Props
