import Verif.Model.KeyEdit
import Verif.Spec.KeyEdit
import Verif.Props.KeySigs
import Verif.Props.Signature
/-
Property theorems C94: assigning attributes of keys, user ids and user attributes.
-/
namespace Pgp.Props
open Pgp Pgp.Spec

theorem attr_subType (a : KeyAttr) : a.field.subType ≠ 2 ∧ a.field.subType ≠ 16 ∧ a.field.subType ≠ 31 ∧ a.field.subType ≠ 9 := by cases a <;> decide

/-- What the choice of a self-signature looks at. -/
def SameHead (s s' : SigObj) : Prop := s'.sigType = s.sigType ∧ s'.creationTime = s.creationTime ∧ s'.issuers = s.issuers

theorem set_sameHead (s s' : SigObj) (a : KeyAttr) (v : a.field.Val) (h : s.set a.field v = .ok s') : SameHead s s' := by
  have hs := C52_only_own_subpackets s s' a.field v h
  obtain ⟨h2, h16, _⟩ := attr_subType a
  refine ⟨hs.2.2.1, ?_, ?_⟩
  · simp only [SigObj.creationTime, hs.2.1, hs.1 2 h2.symm]
  · simp only [SigObj.issuers, hs.2.1, hs.1 16 h16.symm]

theorem mostRecentLoop_set (types : List Nat) (own : List Str) (l : List SigObj) (n : Nat) (s s' : SigObj) (hn : l[n]? = some s) (hh : SameHead s s') (i : Nat)
    (best : Option Nat) : mostRecentLoop types own i best (l.set n s') = mostRecentLoop types own i best l := by
  induction l generalizing n i best with
  | nil => cases hn
  | cons x l ih =>
    cases n with
    | zero =>
      cases hn
      obtain ⟨h1, h2, h3⟩ := hh
      simp only [List.set_cons_zero, mostRecentLoop, SigObj.isSelf, h1, h2, h3]
    | succ n =>
      simp only [List.set_cons_succ, mostRecentLoop]
      have e : ∀ i best, mostRecentLoop types own i best (l.set n s') = mostRecentLoop types own i best l := fun i best => ih n hn i best
      simp only [e]

theorem setAttr_inv {p p' : Part} (hv : p.version ≥ 4) {a : KeyAttr} {v : a.field.Val} (h : p.setAttr a v = .ok p') :
    ∃ n s s', p.mostRecent false = .ok (some n) ∧ p.sigs[n]? = some s ∧ s.set a.field v = .ok s' ∧ p' = { p with sigs := p.sigs.set n s' } := by
  rw [Part.setAttr, if_pos hv] at h
  obtain ⟨o, ho, h⟩ := except_bind_eq_ok.mp h
  cases o with
  | none => cases h
  | some n =>
    simp only at h
    split at h
    · cases h
    · rename_i s hs
      obtain ⟨s', hs', h⟩ := except_bind_eq_ok.mp h
      cases h
      exact ⟨n, s, s', ho, hs, hs', rfl⟩

theorem setAttr_mostRecent {p : Part} {a : KeyAttr} {v : a.field.Val} {n : Nat} {s s' : SigObj} (hs : p.sigs[n]? = some s) (h : s.set a.field v = .ok s') (r : Bool) :
    ({ p with sigs := p.sigs.set n s' } : Part).mostRecent r = p.mostRecent r :=
  mostRecentLoop_set _ _ _ n s s' hs (set_sameHead s s' a v h) _ _

theorem getElem?_set_self' {α : Type} {l : List α} {n : Nat} {x y : α} (h : l[n]? = some x) : (l.set n y)[n]? = some y := by
  rw [List.getElem?_set_self (List.getElem?_eq_some_iff.mp h).1]

/-- C94. An assignment changes the self-signature consulted and nothing else: no other signature, no other kind of subpacket, neither number nor order of the
signatures. Afterwards the same one is consulted. -/
theorem C94_only_chosen (p p' : Part) (hv : p.version ≥ 4) (hl : ∀ s ∈ p.sigs, Readable s) (a : KeyAttr) (v : a.field.Val) (h : p.setAttr a v = .ok p') :
    ∃ n s s', Chosen p n s ∧ Chosen p' n s' ∧ s.set a.field v = .ok s' ∧ p' = { p with sigs := p.sigs.set n s' } := by
  obtain ⟨n, s, s', hm, hs, hset, rfl⟩ := setAttr_inv hv h
  have key : ∀ q : Part, (∀ s ∈ q.sigs, Readable s) → q.mostRecent false = .ok (some n) → ∀ z, q.sigs[n]? = some z → Chosen q n z := by
    intro q hq hm z hz
    rcases C42_last_listed q false hq with ⟨_, h0⟩ | ⟨k, y, h1, h2, h3, h4⟩
    · rw [hm] at h0; cases h0
    · rw [hm] at h3
      cases h3
      rw [hz] at h1
      cases h1
      exact ⟨hz, h2, h4⟩
  have hh := set_sameHead s s' a v hset
  refine ⟨n, s, s', key p hl hm s hs, key _ ?_ (by rw [setAttr_mostRecent hs hset, hm]) s' (getElem?_set_self' hs), hset, rfl⟩
  intro x hx
  rcases List.mem_or_eq_of_mem_set hx with hx | rfl
  · exact hl x hx
  · have := hl s (List.mem_of_getElem? hs)
    rw [Readable] at this ⊢
    rw [hh.2.1, hh.2.2]
    exact this

/-- C94 (part that holds). What was assigned to an attribute is read from it. -/
theorem C94_set_get_partial (p p' : Part) (hv : p.version ≥ 4) (hr : ∀ s ∈ p.sigs, Regular s) (a : KeyAttr) (v : a.field.Val) (h : p.setAttr a v = .ok p') :
    p'.attr a = .ok (.value (some v)) := by
  obtain ⟨n, s, s', hm, hs, hset, rfl⟩ := setAttr_inv hv h
  exact C42_attr_of_chosen { p with sigs := p.sigs.set n s' } hv a n s' (by rw [setAttr_mostRecent hs hset, hm]) (getElem?_set_self' hs) _
    (C52_set_get_partial s s' (hr s (List.mem_of_getElem? hs)) a.field v hset)

theorem confused_of_field {a b : KeyAttr} (h : a.field = b.field) : a = b ∨ Confused a b := by
  revert h
  cases a <;> cases b <;> first
    | exact fun _ => .inl rfl
    | exact fun h => absurd h (by decide)
    | exact fun _ => .inr (.inl ⟨by decide, by decide⟩)
    | exact fun _ => .inr (.inr ⟨by decide, by decide⟩)

theorem flagAttr_of {a : KeyAttr} (h : ∃ x, a.field = .flag x) : KeyFlagAttr a := by
  obtain ⟨x, h⟩ := h
  revert h
  cases a <;> first
    | (intro h; cases h; done)
    | exact fun _ => by unfold KeyFlagAttr; decide

theorem attr_separate (a b : KeyAttr) : Separate a.field b.field := by
  refine ⟨fun h => ?_, fun h => ?_⟩ <;> · cases a <;> exact absurd h.1 (by decide)

/-- C94 (part that holds). After any sequence of assignments every attribute of a version 4 key reads as the value last assigned to it, and as before if none was:
for an attribute that is not confused with another assigned one, and, if it is a key flag, if the signature consulted has key flags. -/
theorem C94_history_partial (p p' : Part) (hv : p.version ≥ 4) (hr : ∀ s ∈ p.sigs, Regular s) (g : KeyAttr) (h : List KeyAssign) (hrun : keyAssignAll p h = .ok p')
    (hc : ∀ a ∈ h, a.1 ≠ g → ¬Confused a.1 g ∧ (KeyFlagAttr a.1 → KeyFlagAttr g → ∀ s ∈ p.sigs, HasFlags s)) :
    p'.attr g = match lastKeyValue g h with
      | some v => .ok (.value (some v))
      | none => p.attr g := by
  induction h generalizing p with
  | nil => cases hrun; rfl
  | cons a l ih =>
    obtain ⟨p1, h1, hrun⟩ := except_bind_eq_ok.mp hrun
    obtain ⟨n, s, s', hm, hs, hset, e1⟩ := setAttr_inv hv h1
    have hv1 : p1.version ≥ 4 := by rw [e1]; exact hv
    have hmem := List.mem_of_getElem? hs
    have hr1 : ∀ x ∈ p1.sigs, Regular x := by
      rw [e1]
      intro x hx
      rcases List.mem_or_eq_of_mem_set hx with hx | rfl
      · exact hr x hx
      · exact set_regular s _ a.1.field a.2 hset (hr s hmem)
    have hc1 : ∀ b ∈ l, b.1 ≠ g → ¬Confused b.1 g ∧ (KeyFlagAttr b.1 → KeyFlagAttr g → ∀ s ∈ p1.sigs, HasFlags s) := by
      intro b hb hne
      obtain ⟨hc1, hc2⟩ := hc b (List.mem_cons_of_mem _ hb) hne
      refine ⟨hc1, fun hb hg x hx => ?_⟩
      rw [e1] at hx
      rcases List.mem_or_eq_of_mem_set hx with hx | rfl
      · exact hc2 hb hg x hx
      · exact set_hasFlags s _ a.1.field a.2 hset (hc2 hb hg s hmem)
    rw [ih p1 hv1 hr1 hrun hc1]
    simp only [lastKeyValue]
    cases hlv : lastKeyValue g l with
    | some w => rfl
    | none =>
      simp only
      by_cases he : a.1 = g
      · rw [dif_pos he]
        obtain ⟨b, v⟩ := a
        simp only at he
        subst he
        exact C94_set_get_partial p p1 hv hr b v h1
      · rw [dif_neg he]
        obtain ⟨hn, hf⟩ := hc a List.mem_cons_self he
        have hne : a.1.field ≠ g.field := fun e => (confused_of_field e).elim he hn
        have hkeep : s'.get g.field = s.get g.field := by
          apply C52_others_kept_partial s s' a.1.field g.field a.2 hset hne (attr_separate _ _)
          rintro ⟨ha, hg⟩
          exact hf (flagAttr_of ha) (flagAttr_of hg) s hmem
        rw [e1]
        simp only [Part.attr, if_pos hv, setAttr_mostRecent hs hset, hm, except_bind_ok, getElem?_set_self' hs, hs, hkeep]

/-! ### Examples -/

/-- A key with two self-signatures with key flags and preferences. -/
def exEdited (created : Nat) : SigObj :=
  exSigOf 0x1f created "0123456789ABCDEF" [.plain false (.keyFlags ⟨true, true, false, false, false, false, false⟩), .plain false (.prefSym [9, 8])]
def exEditPart : Part := ⟨4, [0x1f], [0x20], [exId], [exEdited 1000, exEdited 2000]⟩

theorem exEdit_regular : ∀ s ∈ exEditPart.sigs, Regular s := by
  intro s hs
  have h : ∀ n, Regular (exEdited n) := by
    intro n
    refine ⟨?_, ?_⟩ <;> · intro x hx c t he; subst he; simp [exEdited, exSigOf] at hx
  rcases List.mem_cons.mp hs with rfl | hs
  · exact h _
  · rw [List.mem_singleton.mp hs]; exact h _

theorem exEdit_flags : ∀ s ∈ exEditPart.sigs, HasFlags s := by
  intro s hs
  have h : ∀ n, HasFlags (exEdited n) := fun n => ⟨.plain false (.keyFlags ⟨true, true, false, false, false, false, false⟩), by simp [exEdited, exSigOf], rfl⟩
  rcases List.mem_cons.mp hs with rfl | hs
  · exact h _
  · rw [List.mem_singleton.mp hs]; exact h _

theorem exEdit_readable : ∀ s ∈ exEditPart.sigs, Readable s := by
  intro s hs
  have h : ∀ n, Readable (exEdited n) := fun n => ⟨⟨_, rfl⟩, _, rfl⟩
  rcases List.mem_cons.mp hs with rfl | hs
  · exact h _
  · rw [List.mem_singleton.mp hs]; exact h _

example := C94_only_chosen exEditPart _ (by decide) exEdit_readable .prefSym [7] rfl
example := C94_set_get_partial exEditPart _ (by decide) exEdit_regular .maySign false rfl
example := C94_history_partial exEditPart _ (by decide) exEdit_regular .maySign [⟨.maySign, false⟩, ⟨.mayEncryptStorage, true⟩, ⟨.prefSym, [9, 8]⟩] rfl
  (fun a ha hne => ⟨by
    rcases List.mem_cons.mp ha with rfl | ha
    · exact absurd rfl hne
    rcases List.mem_cons.mp ha with rfl | ha
    · rintro (⟨_, h⟩ | ⟨_, h⟩) <;> exact absurd h (by decide)
    · rw [List.mem_singleton.mp ha]
      rintro (⟨_, h⟩ | ⟨_, h⟩) <;> exact absurd h (by decide), fun _ _ => exEdit_flags⟩)

/-! ### When it can be done, and where it fails -/

/-- C94. Assigning succeeds if there is a self-signature to keep the value in, except for a list of algorithms not made of octets. -/
theorem C94_set_succeeds (p : Part) (hl : ∀ s ∈ p.sigs, Readable s) (hself : ∃ s ∈ p.sigs, SelfSig p.selfTypes p.own s) (a : KeyAttr) (v : a.field.Val)
    (hv : match a, v with
      | .prefComp, l => ∀ x ∈ (show List Nat from l), x < 256
      | .prefHash, l => ∀ x ∈ (show List Nat from l), x < 256
      | .prefSym, l => ∀ x ∈ (show List Nat from l), x < 256
      | _, _ => True) : ∃ p', p.setAttr a v = .ok p' := by
  rw [Part.setAttr]
  split
  · rcases C42_last_listed p false hl with ⟨h0, _⟩ | ⟨k, y, h1, h2, h3, h4⟩
    · obtain ⟨s, hs, hself⟩ := hself
      exact absurd hself (h0 s hs)
    · obtain ⟨s', hs'⟩ := C52_set_succeeds y a.field v (by cases a <;> exact hv)
      simp only [h3, except_bind_ok, h1, hs']
      exact ⟨_, rfl⟩
  · exact ⟨_, rfl⟩

example := C94_set_succeeds exEditPart exEdit_readable ⟨exEdited 1000, List.mem_cons_self, ⟨[exId], rfl, exId, by simp, by simp [exEditPart]⟩, by decide⟩ .prefSym [7, 255]
  (by intro x hx; revert x hx; decide)

/-- C94 fails: without a self-signature (an unsigned key, or one signed by others only) assigning raises, while reading gives a default. -/
theorem C94_unsigned_raises (p : Part) (hv : p.version ≥ 4) (hl : ∀ s ∈ p.sigs, Readable s) (hself : ∀ s ∈ p.sigs, ¬SelfSig p.selfTypes p.own s) (a : KeyAttr)
    (v : a.field.Val) : p.setAttr a v = .error .attributeError ∧ p.attr a = .ok .default := by
  rcases C42_last_listed p false hl with ⟨_, h0⟩ | ⟨k, y, h1, h2, _⟩
  · exact ⟨by simp only [Part.setAttr, if_pos hv, h0, except_bind_ok], by simp only [Part.attr, if_pos hv, h0, except_bind_ok]; rfl⟩
  · exact absurd h2 (hself y (List.mem_of_getElem? h1))

example := C94_unsigned_raises { exEditPart with own := ["FEDCBA9876543210".toList] } (by decide) exEdit_readable (by
  intro s hs h
  have hh : ∀ n, ¬SelfSig [0x1f] ["FEDCBA9876543210".toList] (exEdited n) := by
    rintro n ⟨⟨ids, hi, k, hk, ho⟩, _⟩
    cases hi
    rw [List.mem_singleton.mp ho] at hk
    exact absurd hk (by decide +kernel)
  rcases List.mem_cons.mp hs with rfl | hs
  · exact hh _ h
  · rw [List.mem_singleton.mp hs] at h; exact hh _ h) .maySign true

/-- C94 fails: assigning an attribute of a version 2 or 3 key is silently lost. -/
theorem C94_old_keys_refuted (p : Part) (hv : p.version < 4) (a : KeyAttr) (v : a.field.Val) : p.setAttr a v = .ok p ∧ Raises (p.attr a) :=
  ⟨by rw [Part.setAttr, if_neg (by omega)], C42_old_versions_raise p hv a⟩

example := C94_old_keys_refuted { exEditPart with version := 3 } (by decide) .maySign true

/-- C94 fails: attributes that the library confuses change together. Forbidding a key to encrypt stored data, or its use for authentication, forbids encrypting
communications; stating that it supports modification detection states that it has several owners. -/
theorem C94_confused_refuted (p p' : Part) (hv : p.version ≥ 4) (hr : ∀ s ∈ p.sigs, Regular s) (b : Bool) :
    (p.setAttr .mayEncryptStorage b = .ok p' → p'.attr .mayEncryptComms = .ok (.value (some b))) ∧
    (p.setAttr .mayAuth b = .ok p' → p'.attr .mayEncryptComms = .ok (.value (some b))) ∧
    (p.setAttr .supportsMdc b = .ok p' → p'.attr .mayMulti = .ok (.value (some b))) :=
  ⟨fun h => C94_set_get_partial p p' hv hr .mayEncryptStorage b h, fun h => C94_set_get_partial p p' hv hr .mayAuth b h,
    fun h => C94_set_get_partial p p' hv hr .supportsMdc b h⟩

example := C94_confused_refuted exEditPart exEditPart (by decide) exEdit_regular true

/-- C94 fails: a changed value is not signed. The octets covered by the self-signature change while the signature stays the one made for the old octets. -/
theorem C94_not_signed_refuted (p p' : Part) (hv : p.version ≥ 4) (hl : ∀ s ∈ p.sigs, Readable s) (a : KeyAttr) (v : a.field.Val) (h : p.setAttr a v = .ok p')
    (hu : ∀ s ∈ p.sigs, ∀ x ∈ s.unhashed, x.type ≠ a.field.subType) (hne : p'.attr a ≠ p.attr a) :
    ∃ n s s', Chosen p n s ∧ Chosen p' n s' ∧ s'.hashed ≠ s.hashed ∧ s'.hash2 = s.hash2 ∧ s'.values = s.values := by
  obtain ⟨n, s, s', h1, h2, hset, rfl⟩ := C94_only_chosen p p' hv hl a v h
  have ho := C52_only_own_subpackets s s' a.field v hset
  refine ⟨n, s, s', h1, h2, ?_, ho.2.2.2.2.2.2.2.1, ho.2.2.2.2.2.2.2.2.1⟩
  intro he
  rcases set_cases s s' a.field v hset with ⟨_, q, _, rfl⟩ | ⟨_, rfl⟩
  · have := congrArg List.length he
    simp at this
  · simp only at he
    have hmem := List.mem_of_getElem? h1.1
    have hun : s.unhashed.map (updSub a.field v) = s.unhashed := by
      conv => rhs; rw [← List.map_id s.unhashed]
      exact List.map_congr_left fun x hx => by rw [updSub, if_neg (hu s hmem x hx)]; rfl
    apply hne
    have hss : ({ s with hashed := s.hashed.map (updSub a.field v), unhashed := s.unhashed.map (updSub a.field v) } : SigObj) = s := by rw [he, hun]
    have hset' : p.sigs.set n s = p.sigs := by
      obtain ⟨hn, hs⟩ := List.getElem?_eq_some_iff.mp h1.1
      rw [← hs, List.set_getElem_self]
    rw [hss, hset']

example := C94_not_signed_refuted exEditPart _ (by decide) exEdit_readable .prefSym [7] rfl
  (by intro s hs; rcases List.mem_cons.mp hs with rfl | hs
      · decide +kernel
      · rw [List.mem_singleton.mp hs]; decide +kernel)
  (by intro h
      have e1 : exEditPart.attr .prefSym = .ok (.value (some [9, 8])) := rfl
      rw [e1, C94_set_get_partial exEditPart _ (by decide) exEdit_regular .prefSym [7] rfl] at h
      exact absurd (show some [7] = some [9, 8] from Got.value.inj (Except.ok.inj h)) (by decide))

/-! ### Expiration -/

/-- C94. The expiration time of a version 2 or 3 key is kept. -/
theorem C94_old_expiration (p : Part) (hv : p.version = 2 ∨ p.version = 3) (stored : KeyExp) (v : Int) :
    ∃ e, p.setExpiration stored v = .ok e ∧ p.expirationTime e = .ok (.at v) :=
  ⟨.at v, by rw [Part.setExpiration, if_pos hv], by rw [Part.expirationTime, if_pos hv]⟩

example := C94_old_expiration { exEditPart with version := 3 } (.inr rfl) .never 5000000

/-- C94 fails: the expiration time of a newer key or subkey can never be assigned. -/
theorem C94_expiration_raises (p : Part) (hv : p.version ≥ 4) (stored : KeyExp) (v : Int) : p.setExpiration stored v = .error .attributeError := by
  rw [Part.setExpiration, if_neg (by omega), if_pos hv]

example := C94_expiration_raises exEditPart (by decide) .never 5000000

theorem setTime_subs (s : SigObj) (k : Nat) (mk : Nat → Plain) (hmk : ∀ t, (mk t).type = k) (t : Nat) :
    (∀ ty, ty ≠ k → (s.setTime k mk t).subs ty = s.subs ty) ∧
    (s.subs k = [] → (s.setTime k mk t).subs k = [.plain false (mk t)]) ∧
    (∀ c p l, s.subs k = .plain c p :: l → ∃ l', (s.setTime k mk t).subs k = .plain c (mk t) :: l') := by
  have hmap : ∀ (upd : Sub → Sub) (_ : ∀ x, (upd x).type = x.type) (ty : Nat) (l : List Sub),
      (l.map upd).filter (fun x => x.type = ty) = (l.filter (fun x => x.type = ty)).map upd := by
    intro upd hu ty l
    induction l with
    | nil => rfl
    | cons x l ih =>
      simp only [List.map_cons, List.filter_cons, hu, ih]
      split <;> rfl
  have hid : ∀ (upd : Sub → Sub) (l : List Sub), (∀ x ∈ l, upd x = x) → l.map upd = l := by
    intro upd l h
    conv => rhs; rw [← List.map_id l]
    exact List.map_congr_left h
  have h3 : (Sub.plain false (mk t)).type = k := hmk t
  refine ⟨?_, ?_, ?_⟩
  · intro ty hty
    unfold SigObj.setTime
    split
    · simp only [SigObj.subs, List.filter_append, List.filter_cons, h3, List.filter_nil]
      rw [if_neg (by simpa using Ne.symm hty)]
      simp
    · simp only [SigObj.subs]
      rw [← List.map_append, hmap, hid]
      · intro x hx
        have : x.type = ty := by simpa using (List.mem_filter.mp hx).2
        cases x with
        | embedded c s => rfl
        | plain c p =>
          have hp : p.type = ty := this
          show (if p.type = k then _ else _) = _
          rw [if_neg (by omega)]
      · intro x
        cases x with
        | embedded c s => rfl
        | plain c p =>
          show (if p.type = k then _ else _ : Sub).type = _
          split
          · rename_i h; show (mk t).type = p.type; rw [hmk, h]
          · rfl
  · intro he
    have h1 : s.hashed.filter (fun x => x.type = k) = [] ∧ s.unhashed.filter (fun x => x.type = k) = [] := by
      simpa [SigObj.subs] using he
    rw [SigObj.setTime, he]
    simp only [SigObj.subs, List.filter_append, List.filter_cons, h1.1, h1.2, h3, List.filter_nil]
    simp
  · intro c p l he
    have hpt : p.type = k := (mem_subs.mp (show Sub.plain c p ∈ s.subs k by rw [he]; exact List.mem_cons_self)).2
    simp only [SigObj.setTime, he]
    simp only [SigObj.subs] at he ⊢
    rw [← List.map_append, hmap, he]
    · rw [List.map_cons]
      simp only [if_pos hpt]
      exact ⟨_, rfl⟩
    · intro x
      cases x with
      | embedded c s => rfl
      | plain c p =>
        show (if p.type = k then _ else _ : Sub).type = _
        split
        · rename_i h; show (mk t).type = p.type; rw [hmk, h]
        · rfl

theorem sharing_set (ids : List Str) (i : Nat) (l : List SigObj) (j n : Nat) (hn : j + n = i) (s' : SigObj) : sharing ids i j (l.set n s') = sharing ids i j l := by
  induction l generalizing j n with
  | nil => rfl
  | cons x l ih =>
    cases n with
    | zero => simp only [List.set_cons_zero, sharing, if_pos (show j = i by omega)]
    | succ n => simp only [List.set_cons_succ, sharing, if_neg (show ¬j = i by omega), ih (j + 1) n (by omega)]

/-- C94 (part that holds). If a self-signature refers to another signature, made at `c`, the key expiration time assigned to it is read from it, for every date after
`c` in whole seconds. -/
theorem C94_signature_expiration_partial (sigs : List SigObj) (i : Nat) (s o : SigObj) (hs : sigs[i]? = some s)
    (ho : targetOf sigs i s = .ok (some o)) (c : Int) (hc : o.creationTime = .ok c) (t : Nat) (ht : t ≠ 0) :
    ∃ s', setKeyExpirationOf sigs i s (c + fromTimestamp t) = .ok s' ∧ keyExpirationOf (sigs.set i s') i s' = .ok (.at (c + fromTimestamp t)) := by
  obtain ⟨eother, enil, econs⟩ := setTime_subs s 9 .keyExpiration (fun _ => rfl) t
  have hperiod : keyPeriod sigs i s (c + fromTimestamp t) = .ok (t : Int) := by
    simp only [keyPeriod, ho, except_bind_ok, creationOf, hc, except_pure]
    congr 1
    unfold fromTimestamp
    omega
  refine ⟨s.setTime 9 .keyExpiration t, by simp only [setKeyExpirationOf, hperiod, except_bind_ok, Int.toNat_natCast]; rfl, ?_⟩
  have htime : timeOf ((s.setTime 9 .keyExpiration t).subs 9) = .ok (some t) := by
    cases h9 : s.subs 9 with
    | nil => rw [enil h9]; rfl
    | cons x l =>
      cases x with
      | plain c p =>
        obtain ⟨l', he⟩ := econs c p l h9
        rw [he]; rfl
      | embedded c z =>
        have := (mem_subs.mp (show Sub.embedded c z ∈ s.subs 9 by rw [h9]; exact List.mem_cons_self)).2
        cases this
  have hver : (s.setTime 9 .keyExpiration t).version = s.version := by unfold SigObj.setTime; split <;> rfl
  have hiss : (s.setTime 9 .keyExpiration t).issuers = s.issuers := by simp only [SigObj.issuers, hver, eother 16 (by decide)]
  have htarget : targetOf (sigs.set i (s.setTime 9 .keyExpiration t)) i (s.setTime 9 .keyExpiration t) = .ok (some o) := by
    rw [← ho]
    have h31 : s.subs 31 = [] := by
      cases h : s.subs 31 with
      | nil => rfl
      | cons x l =>
        exfalso
        simp only [targetOf, h] at ho
        obtain ⟨u, hu, _⟩ := except_bind_eq_ok.mp ho
        cases hsg : sigs with
        | nil => rw [hsg] at hs; cases hs
        | cons z zs =>
          rw [hsg] at hu
          unfold targetSubs at hu
          split at hu
          · rename_i hq; cases hq
          · simp only at hu
            obtain ⟨_, _, hu⟩ := except_bind_eq_ok.mp hu
            cases hu
          · cases hu
    simp only [targetOf, eother 31 (by decide), h31, targetSubs, except_bind_ok, List.length_set, hiss]
    split
    · rfl
    · congr 1
      funext ids
      rw [sharing_set ids i sigs 0 i (by omega)]
  obtain ⟨m, rfl⟩ := Nat.exists_eq_succ_of_ne_zero ht
  simp only [keyExpirationOf, htime, except_bind_ok, htarget, addPeriod, hc]
  rfl

example := C94_signature_expiration_partial exEditPart.sigs 1 (exEdited 2000) (exEdited 1000) rfl (by rfl) _ rfl 86400 (by decide)

/-- C94 fails: if a self-signature is the only one by its issuer, a key expiration time cannot be assigned to it. -/
theorem C94_lone_expiration_raises (sigs : List SigObj) (i : Nat) (s : SigObj) (h : targetOf sigs i s = .ok none) (v : Int) :
    setKeyExpirationOf sigs i s v = .error .attributeError := by
  simp only [setKeyExpirationOf, keyPeriod, h, except_bind_ok, creationOf]
  rfl

example := C94_lone_expiration_raises [exEdited 1000] 0 (exEdited 1000) rfl 5000000

/-- C94 fails: assigning a date before that of the other signature is not refused; the period then written makes the key valid for decades: with `n` seconds
before, 2^32 − n seconds. -/
theorem C94_past_expiration_refuted (sigs : List SigObj) (i : Nat) (s o : SigObj) (ho : targetOf sigs i s = .ok (some o)) (c : Int) (hc : o.creationTime = .ok c)
    (n : Nat) (hn : 0 < n) (hn' : n < 2 ^ 32) :
    keyPeriod sigs i s (c - fromTimestamp n) = .ok (-(n : Int)) ∧ beNat (int4 (-(n : Int))) = 2 ^ 32 - n := by
  refine ⟨?_, ?_⟩
  · simp only [keyPeriod, ho, except_bind_ok, creationOf, hc, except_pure]
    congr 1
    unfold fromTimestamp
    omega
  · simp only [beNat, int4, List.foldl_cons, List.foldl_nil]
    have e : ∀ z : Int, (UInt8.ofNat (z % 256).toNat).toNat = (z % 256).toNat := by
      intro z
      rw [UInt8.toNat_ofNat']
      omega
    rw [e, e, e, e]
    omega

example := C94_past_expiration_refuted exEditPart.sigs 1 (exEdited 2000) (exEdited 1000) (by rfl) _ rfl 86400 (by decide) (by decide)

end Pgp.Props
