import Verif.Lemmas.SigLists
import Verif.Props.Signature
import Verif.Props.Framing
import Verif.Props.UserId
/-
Property theorems C84: list-valued and remaining attributes of signatures.
-/
namespace Pgp.Props
open Pgp Pgp.Spec

theorem sameOctets_iff {α : Type} (octets : α → Py Bytes) (a b : α) (ha : ∃ e, octets a = .ok e) : sameOctets octets a b = true ↔ octets a = octets b := by
  obtain ⟨e, he⟩ := ha
  unfold sameOctets
  rw [he]
  cases octets b with
  | ok y => simp
  | error y => simp

/-! ### Notations -/

def exNote (name value : String) : NoteObj := ⟨some "example.org".toList, name.toList, .text value.toList⟩

/-- A signature with two notations, one of them in the unhashed area. -/
def exNoted : SigObj := { exObj with
  hashed := exObj.hashed ++ [.plain false (.note "a".toList (some "example.org".toList) (.text "1".toList))],
  unhashed := exObj.unhashed ++ [.plain false (.note "b".toList (some "example.org".toList) (.text "2".toList))] }

theorem exNoted_notations : exNoted.notations = .ok [exNote "a" "1", exNote "b" "2"] := rfl

/-- A set order for examples: keep the first of each group of equal elements. -/
def firstOf {α κ : Type} [DecidableEq κ] (key : α → κ) : List α → List α
  | [] => []
  | x :: l => x :: (firstOf key l).filter (fun y => key y ≠ key x)

theorem firstOf_iterates {α κ : Type} [DecidableEq κ] (key : α → κ) (l : List α) : Iterates key l (firstOf key l) := by
  induction l with
  | nil => exact ⟨nofun, nofun, .nil⟩
  | cons x l ih =>
    obtain ⟨h1, h2, h3⟩ := ih
    refine ⟨?_, ?_, ?_⟩
    · intro y hy
      rcases List.mem_cons.mp hy with rfl | hy
      · exact List.mem_cons_self
      · exact List.mem_cons_of_mem _ (h1 y (List.mem_filter.mp hy).1)
    · intro y hy
      by_cases hk : key x = key y
      · exact ⟨x, List.mem_cons_self, hk⟩
      · rcases List.mem_cons.mp hy with rfl | hy
        · exact absurd rfl hk
        · obtain ⟨z, hz, e⟩ := h2 y hy
          exact ⟨z, List.mem_cons_of_mem _ (List.mem_filter.mpr ⟨hz, by rw [e]; simpa using fun h => hk h.symm⟩), e⟩
    · exact List.pairwise_cons.mpr ⟨fun y hy => by simpa using fun h => (of_decide_eq_true (List.mem_filter.mp hy).2) h.symm, h3.filter _⟩

/-- C84 (part that holds). Assigning a non-empty list of notations makes every one of them present (as octets), keeps those that were there, adds nothing else and
nothing twice, and leaves all other subpackets alone. -/
theorem C84_notations_present_partial (fl : FloorLog2) (order : List NoteObj → List NoteObj) (ho : ∀ l, Iterates (NoteObj.octets fl) l (order l)) (s : SigObj)
    (existing given : List NoteObj) (hex : s.notations = .ok existing) (hw : ∀ k ∈ given ++ existing, ∃ e, k.octets fl = .ok e) (hne : given ≠ []) :
    ∃ s' added after, s.setNotations fl order given = .ok s' ∧ s'.notations = .ok after ∧ after.Perm (existing ++ added) ∧
      (∀ k ∈ added, k ∈ given ∧ ∀ e ∈ existing, k.octets fl ≠ e.octets fl) ∧ added.Pairwise (fun x y => x.octets fl ≠ y.octets fl) ∧
      (∀ k ∈ given, ∃ a ∈ after, a.octets fl = k.octets fl) ∧ ∀ ty, ty ≠ 20 → s'.subs ty = s.subs ty := by
  obtain ⟨r1, h1⟩ := mapM_ok_of (fun k hk => hw k (List.mem_append_left _ hk))
  obtain ⟨r2, h2⟩ := mapM_ok_of (fun k hk => hw k (List.mem_append_right _ hk))
  obtain ⟨s', added, after, e0, e1, e2, e3, e4, e5, e6⟩ := list_added (NoteObj.octets fl) (sameOctets (NoteObj.octets fl)) NoteObj.ofSub NoteObj.toSub 20 (fun _ => rfl)
    (fun s k => s.removeSub fl k.toSub) order existing given hne (fun a ha b _ => sameOctets_iff _ a b (hw a ha)) (ho _) (fun _ _ => rfl) s hex
  refine ⟨s', added, after, ?_, e1, e2, e3, e4, e5, e6⟩
  simp only [SigObj.setNotations, hex, h1, h2, except_bind_ok, except_pure, e0]

theorem exNote_ok (k : NoteObj) (h : k ∈ [exNote "c" "3", exNote "a" "1"] ++ [exNote "a" "1", exNote "b" "2"]) : ∃ e, k.octets Nat.log2 = .ok e := by
  simp only [List.cons_append, List.nil_append, List.mem_cons, List.not_mem_nil, or_false] at h
  rcases h with rfl | rfl | rfl | rfl <;> exact ⟨_, rfl⟩

instance : DecidableEq (Py Bytes) := inferInstanceAs (DecidableEq (Except PyErr Bytes))

example := C84_notations_present_partial Nat.log2 (firstOf (NoteObj.octets Nat.log2)) (firstOf_iterates _) exNoted _ [exNote "c" "3", exNote "a" "1"] exNoted_notations exNote_ok
  (by simp)

/-- C84 fails: a notation that was there is still there after assigning a list without it, unless that list is empty. -/
theorem C84_notations_kept_refuted (fl : FloorLog2) (order : List NoteObj → List NoteObj) (ho : ∀ l, Iterates (NoteObj.octets fl) l (order l)) (s s' : SigObj)
    (existing given after : List NoteObj) (hex : s.notations = .ok existing) (hne : given ≠ []) (h : s.setNotations fl order given = .ok s')
    (ha : s'.notations = .ok after) (k : NoteObj) (hk : k ∈ existing) : k ∈ after := by
  have hw : ∀ k ∈ given ++ existing, ∃ e, k.octets fl = .ok e := by
    unfold SigObj.setNotations at h
    rw [hex, except_bind_ok] at h
    obtain ⟨r1, h1, h⟩ := except_bind_eq_ok.mp h
    obtain ⟨r2, h2, h⟩ := except_bind_eq_ok.mp h
    intro k hk
    rcases List.mem_append.mp hk with hk | hk
    · obtain ⟨y, _, e⟩ := (mapM_ok_mem h1).1 k hk; exact ⟨y, e⟩
    · obtain ⟨y, _, e⟩ := (mapM_ok_mem h2).1 k hk; exact ⟨y, e⟩
  obtain ⟨s1, added, after', e0, e1, e2, _⟩ := C84_notations_present_partial fl order ho s existing given hex hw hne
  rw [e0] at h
  cases h
  rw [e1] at ha
  cases ha
  exact e2.mem_iff.mpr (List.mem_append_left _ hk)

example : ∀ s' after, exNoted.setNotations Nat.log2 (firstOf (NoteObj.octets Nat.log2)) [exNote "c" "3"] = .ok s' → s'.notations = .ok after → exNote "a" "1" ∈ after :=
  fun s' after h ha => C84_notations_kept_refuted Nat.log2 _ (firstOf_iterates _) exNoted s' _ _ after exNoted_notations (by simp) h ha _ (by simp)

/-- C84. Assigning an empty list removes all notations and nothing else. -/
theorem C84_notations_cleared (fl : FloorLog2) (order : List NoteObj → List NoteObj) (ho : ∀ l, Iterates (NoteObj.octets fl) l (order l)) (s : SigObj)
    (existing : List NoteObj) (hex : s.notations = .ok existing) (hw : ∀ k ∈ existing, ∃ e, k.octets fl = .ok e) :
    ∃ s', s.setNotations fl order [] = .ok s' ∧ s'.notations = .ok [] ∧ ∀ ty, ty ≠ 20 → s'.subs ty = s.subs ty := by
  obtain ⟨r2, h2⟩ := mapM_ok_of hw
  have hform : ∀ x k, NoteObj.ofSub x = .ok k → x = k.toSub := by
    intro x k h
    cases x with
    | embedded c s => simp only [NoteObj.ofSub] at h; split at h <;> cases h
    | plain c p =>
      simp only [NoteObj.ofSub] at h
      split at h
      · cases h
      · rename_i hc
        split at h
        · cases h
          rw [show c = false by simpa using hc]; rfl
        · cases h
  obtain ⟨c1, c2⟩ := list_cleared (NoteObj.octets fl) (sameOctets (NoteObj.octets fl)) NoteObj.ofSub 20 (fun s k => s.addSub k.toSub) (fun s k => s.removeSub fl k.toSub)
    (fun k x => Sub.same fl x k.toSub = true)
    (fun s k x hx => by
      obtain ⟨hm, ht⟩ := mem_subs.mp hx
      rcases List.mem_append.mp hm with hm | hm
      · obtain ⟨a, b⟩ := (mem_removeSub fl s k.toSub x).1.mp hm
        exact ⟨mem_subs.mpr ⟨List.mem_append_left _ a, ht⟩, by rw [b]; simp⟩
      · obtain ⟨a, b⟩ := (mem_removeSub fl s k.toSub x).2.mp hm
        exact ⟨mem_subs.mpr ⟨List.mem_append_right _ a, ht⟩, by rw [b]; simp⟩)
    (fun s k ty h => subs_removeSub_other fl s k.toSub rfl (show (20 : Nat) ≠ 0 by decide) ty h)
    order existing (fun a ha => (sameOctets_iff _ a a (hw a ha)).mpr rfl) (ho _) s hex
    (fun x _ k hr y hy e => by
      rw [hform x k hr]
      obtain ⟨o, hk⟩ := hw y hy
      have h1 : Sub.toBytes fl k.toSub = .ok o := e.symm.trans hk
      have h2 : Sub.toBytes fl y.toSub = .ok o := hk
      have h3 : k.toSub.cls = y.toSub.cls := rfl
      simp [Sub.same, h1, h2, h3])
  refine ⟨_, ?_, ?_, c2⟩
  · simp only [SigObj.setNotations, hex, h2, except_bind_ok, except_pure, List.mapM_nil]
  · rw [SigObj.notations, c1]; rfl

example := C84_notations_cleared Nat.log2 (firstOf (NoteObj.octets Nat.log2)) (firstOf_iterates _) exNoted _ exNoted_notations (fun k hk => exNote_ok k (List.mem_append_right _ hk))

/-- C84 fails: if any notation is marked critical, none can be read and none can be assigned. -/
theorem C84_critical_notation_refuted (fl : FloorLog2) (order : List NoteObj → List NoteObj) (s : SigObj) (given : List NoteObj) (name : Str) (ns : Option Str) (value : NoteValue)
    (h : Sub.plain true (.note name ns value) ∈ s.hashed ++ s.unhashed) : Raises s.notations ∧ Raises (s.setNotations fl order given) := by
  have hn : Raises s.notations := by
    cases he : s.notations with
    | error e => exact ⟨e, rfl⟩
    | ok r =>
      obtain ⟨y, _, e⟩ := (mapM_ok_mem he).1 _ (mem_subs.mpr ⟨h, rfl⟩)
      cases e
  refine ⟨hn, ?_⟩
  obtain ⟨e, he⟩ := hn
  exact ⟨e, by rw [SigObj.setNotations, he]; rfl⟩

example := C84_critical_notation_refuted Nat.log2 id { exNoted with hashed := [.plain true (.note [] none (.raw [1]))] } [] [] none (.raw [1]) (by simp)

/-! ### Regular expressions -/

/-- A signature with two regular expressions. -/
def exRegexed : SigObj := { exObj with hashed := exObj.hashed ++ [.plain true (.regex "a".toList), .plain false (.regex "b".toList)] }

/-- C84 (part that holds). Assigning a non-empty list of regular expressions makes each of them present; those that were there stay, nothing is added twice, other
subpackets are left alone. -/
theorem C84_regexes_present_partial (fl : FloorLog2) (compiles : Str → Bool) (order : List Str → List Str) (ho : ∀ l, Iterates id l (order l)) (s : SigObj) (existing given : List Str)
    (hex : s.regexes compiles = .ok existing) (hc : ∀ k ∈ given, compiles k = true) (hne : given ≠ []) :
    ∃ s' added after, s.setRegexes fl compiles order given = .ok s' ∧ s'.regexes compiles = .ok after ∧ after.Perm (existing ++ added) ∧
      (∀ k ∈ added, k ∈ given ∧ k ∉ existing) ∧ added.Nodup ∧ (∀ k ∈ given, k ∈ after) ∧ ∀ ty, ty ≠ 6 → s'.subs ty = s.subs ty := by
  have hex' := hex
  unfold SigObj.regexes at hex'
  obtain ⟨ps, hp, hex'⟩ := except_bind_eq_ok.mp hex'
  split at hex'
  case isFalse => cases hex'
  rename_i hall
  cases hex'
  obtain ⟨s', added, after, e0, e1, e2, e3, e4, e5, e6⟩ := list_added id (fun a b : Str => decide (a = b)) regexOf (fun k => .plain false (.regex k)) 6 (fun _ => rfl)
    (fun s k => s.removeRegex fl k) order existing given hne (fun a _ b _ => by simp) (ho _) (fun _ _ => rfl) s hp
  refine ⟨s', added, after, ?_, ?_, e2, fun k hk => ⟨(e3 k hk).1, fun h => (e3 k hk).2 k h rfl⟩, e4, fun k hk => ?_, e6⟩
  · simp only [SigObj.setRegexes, hex, except_bind_ok, except_pure, e0]
  · rw [SigObj.regexes, e1, except_bind_ok, if_pos]
    · rfl
    · rw [List.all_eq_true]
      intro k hk
      rcases List.mem_append.mp (e2.mem_iff.mp hk) with h | h
      · exact List.all_eq_true.mp hall k h
      · exact hc k (e3 k h).1
  · obtain ⟨a, ha, e⟩ := e5 k hk
    rw [← show a = k from e]; exact ha

example := C84_regexes_present_partial Nat.log2 (fun _ => true) (firstOf id) (firstOf_iterates _) exRegexed ["a".toList, "b".toList] ["c".toList] rfl (fun _ _ => rfl) (by simp)

/-- C84 fails: no regular expression is ever removed by assigning a non-empty list. -/
theorem C84_regexes_kept_refuted (fl : FloorLog2) (compiles : Str → Bool) (order : List Str → List Str) (ho : ∀ l, Iterates id l (order l)) (s s' : SigObj)
    (existing given after : List Str) (hex : s.regexes compiles = .ok existing) (hc : ∀ k ∈ given, compiles k = true) (hne : given ≠ [])
    (h : s.setRegexes fl compiles order given = .ok s') (ha : s'.regexes compiles = .ok after) (k : Str) (hk : k ∈ existing) : k ∈ after := by
  obtain ⟨s1, added, after', e0, e1, e2, _⟩ := C84_regexes_present_partial fl compiles order ho s existing given hex hc hne
  rw [e0] at h
  cases h
  rw [e1] at ha
  cases ha
  exact e2.mem_iff.mpr (List.mem_append_left _ hk)

example : ∀ s' after, exRegexed.setRegexes Nat.log2 (fun _ => true) (firstOf id) ["c".toList] = .ok s' → s'.regexes (fun _ => true) = .ok after → "a".toList ∈ after :=
  fun s' after h ha => C84_regexes_kept_refuted Nat.log2 _ _ (firstOf_iterates _) exRegexed s' ["a".toList, "b".toList] _ after rfl (fun _ _ => rfl) (by simp) h ha _ (by simp)

theorem hasPattern_iff (k : Str) (x : Sub) : hasPattern k x = true ↔ ∃ c, x = .plain c (.regex k) := by
  constructor
  · intro h
    cases x with
    | embedded c s => cases h
    | plain c p =>
      cases p with
      | regex p => exact ⟨c, by rw [of_decide_eq_true h]⟩
      | _ => cases h
  · rintro ⟨c, rfl⟩; simp [hasPattern]

/-- What is left by removing a pattern. -/
theorem removeRegex_spec (fl : FloorLog2) (k : Str) (l : List Sub) (s : SigObj) :
    (∀ x ∈ (l.foldl (fun z sp => if hasPattern k sp then z.removeSub fl sp else z) s).subs 6, x ∈ s.subs 6 ∧ ∀ sp ∈ l, hasPattern k sp = true → Sub.same fl x sp = false) ∧
    ∀ ty, ty ≠ 6 → (l.foldl (fun z sp => if hasPattern k sp then z.removeSub fl sp else z) s).subs ty = s.subs ty := by
  induction l generalizing s with
  | nil => exact ⟨fun x hx => ⟨hx, fun sp h => by cases h⟩, fun _ _ => rfl⟩
  | cons sp l ih =>
    obtain ⟨i1, i2⟩ := ih (if hasPattern k sp then s.removeSub fl sp else s)
    rw [List.foldl_cons]
    cases hk : hasPattern k sp with
    | false =>
      rw [hk] at i1 i2
      refine ⟨fun x hx => ?_, i2⟩
      obtain ⟨j1, j2⟩ := i1 x hx
      refine ⟨j1, fun y hy hp => ?_⟩
      rcases List.mem_cons.mp hy with rfl | hy
      · rw [hk] at hp; cases hp
      · exact j2 y hy hp
    | true =>
      rw [hk] at i1 i2
      simp only [if_true] at i1 i2 ⊢
      obtain ⟨c, hsp⟩ := (hasPattern_iff k sp).mp hk
      refine ⟨fun x hx => ?_, fun ty h => (i2 ty h).trans (subs_removeSub_other fl s sp (by rw [hsp]; rfl) (by rw [hsp]; exact (show (6 : Nat) ≠ 0 by decide)) ty
        (by rw [hsp]; exact h))⟩
      obtain ⟨j1, j2⟩ := i1 x hx
      obtain ⟨hm, ht⟩ := mem_subs.mp j1
      have hx' : x ∈ s.subs 6 ∧ Sub.same fl x sp = false := by
        rcases List.mem_append.mp hm with hm | hm
        · obtain ⟨a, b⟩ := (mem_removeSub fl s sp x).1.mp hm
          exact ⟨mem_subs.mpr ⟨List.mem_append_left _ a, ht⟩, b⟩
        · obtain ⟨a, b⟩ := (mem_removeSub fl s sp x).2.mp hm
          exact ⟨mem_subs.mpr ⟨List.mem_append_right _ a, ht⟩, b⟩
      refine ⟨hx'.1, fun y hy hp => ?_⟩
      rcases List.mem_cons.mp hy with rfl | hy
      · exact hx'.2
      · exact j2 y hy hp

/-- C84. Assigning an empty list removes all regular expressions, critical or not, and nothing else. -/
theorem C84_regexes_cleared (fl : FloorLog2) (compiles : Str → Bool) (order : List Str → List Str) (ho : ∀ l, Iterates id l (order l)) (s : SigObj) (existing : List Str)
    (hex : s.regexes compiles = .ok existing) (hw : ∀ k ∈ existing, k.length < 2 ^ 32 - 1) :
    ∃ s', s.setRegexes fl compiles order [] = .ok s' ∧ s'.regexes compiles = .ok [] ∧ ∀ ty, ty ≠ 6 → s'.subs ty = s.subs ty := by
  have hex' := hex
  unfold SigObj.regexes at hex'
  obtain ⟨ps, hp, hex'⟩ := except_bind_eq_ok.mp hex'
  split at hex'
  case isFalse => cases hex'
  cases hex'
  have hbytes : ∀ c k, k ∈ existing → ∃ e, Sub.toBytes fl (.plain c (.regex k)) = .ok e := by
    intro c k hk
    have hl : (asciiEncodeReplace k).length = k.length := by simp [asciiEncodeReplace]
    have hk := hw k hk
    obtain ⟨e, h1, _⟩ := newPacketLengthToBytes_definite (n := (asciiEncodeReplace k).length + 1) (by omega) false
    refine ⟨e ++ [UInt8.ofNat (6 + if c then 0x80 else 0)] ++ asciiEncodeReplace k, ?_⟩
    show subBytes 6 c (asciiEncodeReplace k) = _
    unfold subBytes
    rw [h1, except_bind_ok, byteOf_lt (by split <;> omega)]
    rfl
  have hread : ∀ x k, regexOf x = .ok k → ∃ c, x = .plain c (.regex k) := by
    intro x k h
    cases x with
    | embedded c s => cases h
    | plain c p =>
      cases p with
      | regex p => cases h; exact ⟨c, rfl⟩
      | _ => cases h
  -- the set of subpackets looked at by a removal is part of the original one, so equal ones go
  obtain ⟨c1, c2⟩ := list_cleared id (fun a b : Str => decide (a = b)) regexOf 6 (fun s k => s.addSub (.plain false (.regex k))) (fun s k => s.removeRegex fl k)
    (fun k x => ∃ c, x = .plain c (.regex k) ∧ k ∈ existing)
    (fun z k x hx => by
      obtain ⟨r1, _⟩ := removeRegex_spec fl k (z.subs 6) z
      obtain ⟨h1, h2⟩ := r1 x hx
      refine ⟨h1, ?_⟩
      rintro ⟨c, rfl, hk⟩
      obtain ⟨e, he⟩ := hbytes c k hk
      have h3 := h2 _ h1 ((hasPattern_iff k _).mpr ⟨c, rfl⟩)
      rw [sub_same_refl he] at h3
      cases h3)
    (fun z k ty h => (removeRegex_spec fl k (z.subs 6) z).2 ty h)
    order existing (fun a _ => by simp) (ho _) s hp
    (fun x hx k hr y hy e => by
      obtain ⟨c, hc⟩ := hread x k hr
      have e : y = k := e
      rw [e]
      exact ⟨c, hc, e ▸ hy⟩)
  refine ⟨_, ?_, ?_, c2⟩
  · simp only [SigObj.setRegexes, hex, except_bind_ok, except_pure]
  · rw [SigObj.regexes, c1]; rfl

example := C84_regexes_cleared Nat.log2 (fun _ => true) (firstOf id) (firstOf_iterates _) exRegexed ["a".toList, "b".toList] rfl (by
  intro k hk
  simp only [List.mem_cons, List.not_mem_nil, or_false] at hk
  rcases hk with rfl | rfl <;> decide)

/-! ### Embedded signatures -/

/-- What the objects read from version 4 signature packets in the new format look like. -/
def ReadV4 (k : SigObj) : Prop := k.version ≥ 4 ∧ k.created = none ∧ k.keyId = none ∧ k.fmt = .new

theorem embeddedOf_toSub (k : SigObj) (h : ReadV4 k) : embeddedOf k.toSub = .ok k := by
  obtain ⟨h1, h2, h3, h4⟩ := h
  have hp : k.toPacket = .ok (.v4 k.version k.sigType k.pubAlg k.hashAlg k.hashed k.unhashed k.hash2 k.values) := by rw [SigObj.toPacket, if_pos h1]
  simp only [SigObj.toSub, hp, embeddedOf, SigObj.fromPacket, if_pos h1]
  cases k
  cases h2; cases h3; cases h4
  rfl

/-- C84 (part that holds). Assigning a non-empty list of (version 4) signatures to embed makes each of them present, keeps those that were there, adds nothing else and
nothing twice, and leaves all other subpackets alone. -/
theorem C84_embedded_present_partial (fl : FloorLog2) (order : List SigObj → List SigObj) (ho : ∀ l, Iterates (SigObj.bytes fl) l (order l)) (s : SigObj)
    (existing given : List SigObj) (hex : s.embeddedSigs = .ok existing) (hw : ∀ k ∈ given ++ existing, ∃ e, k.bytes fl = .ok e) (hg : ∀ k ∈ given, ReadV4 k) (hne : given ≠ []) :
    ∃ s' added after, s.setEmbedded fl order given = .ok s' ∧ s'.embeddedSigs = .ok after ∧ after.Perm (existing ++ added) ∧
      (∀ k ∈ added, k ∈ given ∧ ∀ e ∈ existing, k.bytes fl ≠ e.bytes fl) ∧ added.Pairwise (fun x y => x.bytes fl ≠ y.bytes fl) ∧
      (∀ k ∈ given, ∃ a ∈ after, a.bytes fl = k.bytes fl) ∧ ∀ ty, ty ≠ 32 → s'.subs ty = s.subs ty := by
  obtain ⟨r1, h1⟩ := mapM_ok_of (fun k hk => hw k (List.mem_append_left _ hk))
  obtain ⟨r2, h2⟩ := mapM_ok_of (fun k hk => hw k (List.mem_append_right _ hk))
  obtain ⟨s', added, after, e0, e1, e2, e3, e4, e5, e6⟩ := list_added (SigObj.bytes fl) (sameOctets (SigObj.bytes fl)) embeddedOf SigObj.toSub 32 (fun _ => rfl)
    (fun s k => s.removeSub fl k.toSub) order existing given hne (fun a ha b _ => sameOctets_iff _ a b (hw a ha)) (ho _) (fun k hk => embeddedOf_toSub k (hg k hk)) s hex
  refine ⟨s', added, after, ?_, e1, e2, e3, e4, e5, e6⟩
  simp only [SigObj.setEmbedded, hex, h1, h2, except_bind_ok, except_pure, e0]

/-- A signature with `exObj` embedded in the unhashed area. -/
def exEmbedding : SigObj := { exObj with sigType := 0x18, unhashed := exObj.unhashed ++ [exObj.toSub] }
theorem exEmbedding_embedded : exEmbedding.embeddedSigs = .ok [exObj] := rfl
def exEmbedded2 : SigObj := { exObj with hash2 := [3, 4] }

example := C84_embedded_present_partial Nat.log2 (firstOf (SigObj.bytes Nat.log2)) (firstOf_iterates _) exEmbedding _ [exEmbedded2] exEmbedding_embedded
  (by intro k hk
      simp only [List.cons_append, List.nil_append, List.mem_cons, List.not_mem_nil, or_false] at hk
      rcases hk with rfl | rfl
      · exact ⟨_, rfl⟩
      · exact ⟨_, rfl⟩)
  (by intro k hk
      rw [List.mem_singleton] at hk
      subst hk
      exact ⟨by decide, rfl, rfl, rfl⟩) (by simp)

/-- C84 fails: an embedded signature is still there after assigning a non-empty list without it. -/
theorem C84_embedded_kept_refuted (fl : FloorLog2) (order : List SigObj → List SigObj) (ho : ∀ l, Iterates (SigObj.bytes fl) l (order l)) (s s' : SigObj)
    (existing given after : List SigObj) (hex : s.embeddedSigs = .ok existing) (hg : ∀ k ∈ given, ReadV4 k) (hne : given ≠ []) (h : s.setEmbedded fl order given = .ok s')
    (ha : s'.embeddedSigs = .ok after) (k : SigObj) (hk : k ∈ existing) : k ∈ after := by
  have hw : ∀ k ∈ given ++ existing, ∃ e, k.bytes fl = .ok e := by
    unfold SigObj.setEmbedded at h
    rw [hex, except_bind_ok] at h
    obtain ⟨r1, h1, h⟩ := except_bind_eq_ok.mp h
    obtain ⟨r2, h2, h⟩ := except_bind_eq_ok.mp h
    intro k hk
    rcases List.mem_append.mp hk with hk | hk
    · obtain ⟨y, _, e⟩ := (mapM_ok_mem h1).1 k hk; exact ⟨y, e⟩
    · obtain ⟨y, _, e⟩ := (mapM_ok_mem h2).1 k hk; exact ⟨y, e⟩
  obtain ⟨s1, added, after', e0, e1, e2, _⟩ := C84_embedded_present_partial fl order ho s existing given hex hw hg hne
  rw [e0] at h
  cases h
  rw [e1] at ha
  cases ha
  exact e2.mem_iff.mpr (List.mem_append_left _ hk)

example : ∀ s' after, exEmbedding.setEmbedded Nat.log2 (firstOf (SigObj.bytes Nat.log2)) [exEmbedded2] = .ok s' → s'.embeddedSigs = .ok after → exObj ∈ after :=
  fun s' after h ha => C84_embedded_kept_refuted Nat.log2 _ (firstOf_iterates _) exEmbedding s' _ _ after exEmbedding_embedded (by
    intro k hk
    rw [List.mem_singleton] at hk
    subst hk
    exact ⟨by decide, rfl, rfl, rfl⟩) (by simp) h ha _ (by simp)

/-- The octets of a signature packet determine the content. -/
theorem bytes_content (fl : FloorLog2) (a b : SigObj) (ha : a.fmt = .new) (hb : b.fmt = .new) (o : Bytes) (h1 : a.bytes fl = .ok o) (h2 : b.bytes fl = .ok o) :
    ∃ p q c, a.toPacket = .ok p ∧ b.toPacket = .ok q ∧ Sig.content fl p = .ok c ∧ Sig.content fl q = .ok c := by
  have key : ∀ z : SigObj, z.fmt = .new → z.bytes fl = .ok o → ∃ p c, z.toPacket = .ok p ∧ Sig.content fl p = .ok c ∧ packetFromData o 0 = .ok (o.length, ⟨.new, 2, c⟩) := by
    intro z hz h
    unfold SigObj.bytes at h
    obtain ⟨p, hp, h⟩ := except_bind_eq_ok.mp h
    obtain ⟨c, hc, h⟩ := except_bind_eq_ok.mp h
    rw [hz] at h
    refine ⟨p, c, hp, hc, ?_⟩
    have hne : 1 ≤ c.length := by
      cases p with
      | v3 =>
        simp only [Sig.content] at hc
        obtain ⟨_, _, hc⟩ := except_bind_eq_ok.mp hc
        obtain ⟨_, _, hc⟩ := except_bind_eq_ok.mp hc
        cases hc
      | v4 =>
        simp only [Sig.content] at hc
        obtain ⟨_, _, hc⟩ := except_bind_eq_ok.mp hc
        obtain ⟨_, _, hc⟩ := except_bind_eq_ok.mp hc
        obtain ⟨_, _, hc⟩ := except_bind_eq_ok.mp hc
        obtain ⟨_, _, hc⟩ := except_bind_eq_ok.mp hc
        obtain ⟨_, _, hc⟩ := except_bind_eq_ok.mp hc
        obtain ⟨_, _, hc⟩ := except_bind_eq_ok.mp hc
        obtain ⟨_, _, hc⟩ := except_bind_eq_ok.mp hc
        cases hc
        simp only [List.length_append, List.length_cons]
        omega
    have hle : c.length ≤ 2 ^ 32 - 1 := by
      by_contra hgt
      unfold Packet.toBytes at h
      obtain ⟨tag, _, h⟩ := except_bind_eq_ok.mp h
      unfold serializeLoop at h
      simp only [] at h
      rw [if_neg (by omega)] at h
      obtain ⟨x, hx, _⟩ := except_bind_eq_ok.mp h
      unfold newPacketLengthToBytes at hx
      rw [if_neg (by omega), if_neg (by omega), if_neg (by simp only [MAX_PACKET_LENGTH]; omega), if_neg (show ¬(decide (2 ∈ DATA_TYPES) = true) by decide)] at hx
      cases hx
    obtain ⟨e, e1, e2⟩ := C09_frame_roundtrip_partial ⟨.new, 2, c⟩ (.inl ⟨rfl, show (2:Nat) < 64 by decide, hne, hle⟩)
    rw [e1 1 (Nat.le_refl _)] at h
    cases h
    simpa using e2 [] []
  obtain ⟨p, c, hp, hc, h⟩ := key a ha h1
  obtain ⟨q, c', hq, hc', h'⟩ := key b hb h2
  rw [h] at h'
  cases h'
  exact ⟨p, q, c, hp, hq, hc, hc'⟩

/-- C84 (part that holds). Assigning an empty list removes all embedded signatures that are not marked critical, and nothing else. -/
theorem C84_embedded_cleared_partial (fl : FloorLog2) (order : List SigObj → List SigObj) (ho : ∀ l, Iterates (SigObj.bytes fl) l (order l)) (s : SigObj)
    (existing : List SigObj) (hex : s.embeddedSigs = .ok existing) (hw : ∀ k ∈ existing, ∃ e, k.bytes fl = .ok e)
    (hs : ∀ sig, Sub.embedded false sig ∈ s.hashed ++ s.unhashed → ∃ e, Sub.toBytes fl (.embedded false sig) = .ok e)
    (hc : ∀ sig, Sub.embedded true sig ∉ s.hashed ++ s.unhashed) :
    ∃ s', s.setEmbedded fl order [] = .ok s' ∧ s'.embeddedSigs = .ok [] ∧ ∀ ty, ty ≠ 32 → s'.subs ty = s.subs ty := by
  obtain ⟨r2, h2⟩ := mapM_ok_of hw
  have hfrom : ∀ sig k, SigObj.fromPacket .new sig = .ok k → k.fmt = .new ∧ ∀ p, k.toPacket = .ok p → p = sig := by
    intro sig k h
    cases sig with
    | v3 v t pa ha cr ki h2 vs =>
      simp only [SigObj.fromPacket] at h
      split at h
      · rename_i hv
        cases h
        refine ⟨rfl, fun p hp => ?_⟩
        simp only [SigObj.toPacket] at hp
        rw [if_neg (by omega), if_pos hv] at hp
        obtain ⟨_, hcr, _⟩ := except_bind_eq_ok.mp hp
        simp only [SigObj.creationTime, if_pos hv] at hcr
        cases hcr
      · cases h
    | v4 v t pa ha hd ud h2 vs =>
      simp only [SigObj.fromPacket] at h
      split at h
      · rename_i hv
        cases h
        refine ⟨rfl, fun p hp => ?_⟩
        simp only [SigObj.toPacket, if_pos hv] at hp
        cases hp; rfl
      · cases h
  have hread : ∀ x k, embeddedOf x = .ok k → ∃ c sig, x = .embedded c sig ∧ SigObj.fromPacket .new sig = .ok k := by
    intro x k h
    cases x with
    | plain c p => cases h
    | embedded c sig => exact ⟨c, sig, rfl, h⟩
  obtain ⟨c1, c2⟩ := list_cleared (SigObj.bytes fl) (sameOctets (SigObj.bytes fl)) embeddedOf 32 (fun s k => s.addSub k.toSub) (fun s k => s.removeSub fl k.toSub)
    (fun k x => Sub.same fl x k.toSub = true)
    (fun s k x hx => by
      obtain ⟨hm, ht⟩ := mem_subs.mp hx
      rcases List.mem_append.mp hm with hm | hm
      · obtain ⟨a, b⟩ := (mem_removeSub fl s k.toSub x).1.mp hm
        exact ⟨mem_subs.mpr ⟨List.mem_append_left _ a, ht⟩, by rw [b]; simp⟩
      · obtain ⟨a, b⟩ := (mem_removeSub fl s k.toSub x).2.mp hm
        exact ⟨mem_subs.mpr ⟨List.mem_append_right _ a, ht⟩, by rw [b]; simp⟩)
    (fun s k ty h => subs_removeSub_other fl s k.toSub rfl (show (32 : Nat) ≠ 0 by decide) ty h)
    order existing (fun a ha => (sameOctets_iff _ a a (hw a ha)).mpr rfl) (ho _) s hex
    (fun x hx k hr y hy e => by
      obtain ⟨c, sig, rfl, hk⟩ := hread x k hr
      obtain ⟨hm, _⟩ := mem_subs.mp hx
      have hcf : c = false := by
        cases c with
        | false => rfl
        | true => exact absurd hm (hc sig)
      subst hcf
      obtain ⟨x', hx', hy'⟩ := (mapM_ok_mem hex).2 y hy
      obtain ⟨_, sig', rfl, hk'⟩ := hread x' y hy'
      obtain ⟨o, ho'⟩ := hw y hy
      obtain ⟨p, q, c, hp, hq, hcp, hcq⟩ := bytes_content fl y k (hfrom _ _ hk').1 (hfrom _ _ hk).1 o ho' (e.symm.trans ho')
      obtain rfl := (hfrom _ _ hk).2 q hq
      obtain ⟨eo, heo⟩ := hs q hm
      have h3 : y.toSub = .embedded false p := by simp only [SigObj.toSub, hp]
      have h4 : Sub.toBytes fl (.embedded false p) = .ok eo := by
        rw [← heo]
        simp only [Sub.toBytes, hcp, hcq]
      simp [Sub.same, h3, h4, heo, Sub.cls, Sub.type])
  refine ⟨_, ?_, ?_, c2⟩
  · simp only [SigObj.setEmbedded, hex, h2, except_bind_ok, except_pure, List.mapM_nil]
  · rw [SigObj.embeddedSigs, c1]; rfl

example := C84_embedded_cleared_partial Nat.log2 (firstOf (SigObj.bytes Nat.log2)) (firstOf_iterates _) exEmbedding _ exEmbedding_embedded
  (by intro k hk; rw [List.mem_singleton] at hk; subst hk; exact ⟨_, rfl⟩)
  (by intro sig h
      simp [exEmbedding, exObj] at h
      rw [SigObj.toSub] at h
      cases h
      exact ⟨_, rfl⟩)
  (by intro sig h; simp [exEmbedding, exObj] at h; rw [SigObj.toSub] at h; cases h)

/-- C84 fails: an embedded signature marked critical survives the assignment of an empty list. -/
theorem C84_critical_embedded_refuted (fl : FloorLog2) (order : List SigObj → List SigObj) (s s' : SigObj) (given : List SigObj) (sig : Sig)
    (h : Sub.embedded true sig ∈ s.hashed ++ s.unhashed) (hs : s.setEmbedded fl order given = .ok s') : Sub.embedded true sig ∈ s'.hashed ++ s'.unhashed := by
  unfold SigObj.setEmbedded at hs
  obtain ⟨existing, _, hs⟩ := except_bind_eq_ok.mp hs
  obtain ⟨_, _, hs⟩ := except_bind_eq_ok.mp hs
  obtain ⟨_, _, hs⟩ := except_bind_eq_ok.mp hs
  cases hs
  have hne : ∀ p, Sub.same fl (.embedded true sig) (.embedded false p) = false := by
    intro p
    cases hh : Sub.same fl (.embedded true sig) (.embedded false p) with
    | false => rfl
    | true =>
      exfalso
      simp only [Sub.same, Bool.and_eq_true] at hh
      have hh := hh.2
      split at hh
      · rename_i x y hx hy
        have hxy : x = y := by simpa using hh
        subst hxy
        simp only [Sub.toBytes] at hx hy
        obtain ⟨c1, _, hx⟩ := except_bind_eq_ok.mp hx
        obtain ⟨c2, _, hy⟩ := except_bind_eq_ok.mp hy
        obtain ⟨l1, n1, e1⟩ := subBytes_ok (by decide) hx
        obtain ⟨l2, n2, e2⟩ := subBytes_ok (by decide) hy
        have s1 := subHeader_write (data := x) (s := []) (off := 0) (ty := 32) (critical := true) (by decide) n1 (by rw [e1]; simp)
        have s2 := subHeader_write (data := x) (s := []) (off := 0) (ty := 32) (critical := false) (by decide) n2 (by rw [e2]; simp)
        rw [s1] at s2
        cases (Prod.mk.inj (Prod.mk.inj (Except.ok.inj s2)).2).1
      · cases hh
  have step : ∀ z k, Sub.embedded true sig ∈ z.hashed ++ z.unhashed →
      Sub.embedded true sig ∈ (listStep (sameOctets (SigObj.bytes fl)) (fun s k => s.addSub k.toSub) (fun s k => s.removeSub fl k.toSub) existing given z k).hashed ++
        (listStep (sameOctets (SigObj.bytes fl)) (fun s k => s.addSub k.toSub) (fun s k => s.removeSub fl k.toSub) existing given z k).unhashed := by
    intro z k hz
    unfold listStep
    split
    · exact hz
    split
    · rcases List.mem_append.mp hz with hz | hz
      · exact List.mem_append_left _ ((mem_removeSub fl z k.toSub _).1.mpr ⟨hz, hne _⟩)
      · exact List.mem_append_right _ ((mem_removeSub fl z k.toSub _).2.mpr ⟨hz, hne _⟩)
    · simp only [SigObj.addSub]
      rcases List.mem_append.mp hz with hz | hz
      · exact List.mem_append_left _ (List.mem_append_left _ hz)
      · exact List.mem_append_right _ hz
  have all : ∀ (l : List SigObj) (z : SigObj), Sub.embedded true sig ∈ z.hashed ++ z.unhashed →
      Sub.embedded true sig ∈ (l.foldl (listStep (sameOctets (SigObj.bytes fl)) (fun s k => s.addSub k.toSub) (fun s k => s.removeSub fl k.toSub) existing given) z).hashed ++
        (l.foldl (listStep (sameOctets (SigObj.bytes fl)) (fun s k => s.addSub k.toSub) (fun s k => s.removeSub fl k.toSub) existing given) z).unhashed := by
    intro l
    induction l with
    | nil => exact fun _ hz => hz
    | cons k l ih => exact fun z hz => ih _ (step z k hz)
  exact all _ s h

example : ∀ s', { exEmbedding with hashed := [.embedded true exFit] }.setEmbedded Nat.log2 (firstOf (SigObj.bytes Nat.log2)) [] = .ok s' → Sub.embedded true exFit ∈ s'.hashed ++ s'.unhashed :=
  fun s' h => C84_critical_embedded_refuted Nat.log2 _ _ s' [] exFit (by simp) h

/-! ### Revocation keys -/

/-- C84 fails: the revocation keys of a signature can never be changed. Assigning a non-empty list raises, and so does assigning the empty list if there are any;
otherwise nothing happens. -/
theorem C84_revocation_keys_refuted (fl : FloorLog2) (order : List RevInfo → List RevInfo) (ho : ∀ l, Iterates (RevInfo.octets fl) l (order l)) (s : SigObj) (given : List RevInfo) :
    (given ≠ [] → Raises (s.setRevocationKeys fl order given)) ∧ ∀ s', s.setRevocationKeys fl order given = .ok s' → s' = s := by
  have hno : ∀ r : RevInfo, ∀ e, r.octets fl ≠ .ok e := by
    intro r e h
    unfold RevInfo.octets at h
    obtain ⟨x, hx, h⟩ := except_bind_eq_ok.mp h
    unfold RevInfo.toSub at hx
    obtain ⟨_, _, hx⟩ := except_bind_eq_ok.mp hx
    cases hx
    simp only [Sub.toBytes, Plain.content] at h
    split at h <;> cases h
  have hnil : ∀ l r, List.mapM (RevInfo.octets fl) l = .ok r → l = [] := by
    intro l r h
    cases l with
    | nil => rfl
    | cons x l =>
      obtain ⟨y, _, e⟩ := (mapM_ok_mem h).1 x List.mem_cons_self
      exact absurd e (hno x y)
  have hok : ∀ s', s.setRevocationKeys fl order given = .ok s' → given = [] ∧ s' = s := by
    intro s' h
    unfold SigObj.setRevocationKeys at h
    obtain ⟨existing, h1, h⟩ := except_bind_eq_ok.mp h
    obtain ⟨r1, h2, h⟩ := except_bind_eq_ok.mp h
    obtain ⟨r2, h3, h⟩ := except_bind_eq_ok.mp h
    have e1 := hnil _ _ h2
    have e2 := hnil _ _ h3
    subst e1 e2
    have e3 : order ([] ++ []) = [] := List.eq_nil_iff_forall_not_mem.mpr (fun x hx => by cases (ho ([] ++ [])).1 x hx)
    rw [e3] at h
    cases h
    exact ⟨rfl, rfl⟩
  refine ⟨fun hne => ?_, fun s' h => (hok s' h).2⟩
  cases h : s.setRevocationKeys fl order given with
  | error e => exact ⟨e, rfl⟩
  | ok s' => exact absurd (hok s' h).1 hne

example := (C84_revocation_keys_refuted Nat.log2 (firstOf (RevInfo.octets Nat.log2)) (firstOf_iterates _) exObj [⟨1, List.replicate 40 'A', false⟩]).1 (by simp)

/-- Which exception: naming a revocation key whose fingerprint is the forty digits every fingerprint has raises `ValueError`, because it cannot be
written; with any other number of digits it fails the assertion before that. -/
theorem C84_revocation_keys_exception_refuted (fl : FloorLog2) (order : List RevInfo → List RevInfo) (s : SigObj) (r : RevInfo) (given : List RevInfo) (l : List RevInfo)
    (hl : s.revocationKeys = .ok l) :
    s.setRevocationKeys fl order (r :: given) = .error (if r.fingerprint.length = 40 then .valueError else .assertionError) := by
  have ho : r.octets fl = .error (if r.fingerprint.length = 40 then .valueError else .assertionError) := by
    by_cases h : r.fingerprint.length = 40
    · rw [if_pos h]
      have h1 : r.toSub = .ok (.plain false (.revocationKey r.fingerprint r.alg r.sensitive)) := by
        unfold RevInfo.toSub; simp only [pyAssert, h, decide_true, if_true]; rfl
      unfold RevInfo.octets
      rw [h1]
      simp only [except_bind_ok, Sub.toBytes, Plain.content]
      rw [if_pos (by omega)]
      rfl
    · rw [if_neg h]
      have h1 : r.toSub = .error .assertionError := by
        unfold RevInfo.toSub; simp only [pyAssert, h, decide_false]; rfl
      unfold RevInfo.octets
      rw [h1]
      rfl
  unfold SigObj.setRevocationKeys
  rw [hl]
  simp only [except_bind_ok, List.mapM_cons, ho]
  rfl

example := C84_revocation_keys_exception_refuted Nat.log2 id exObj ⟨1, List.replicate 40 'A', false⟩ [] [] rfl

/-- The revocation keys reported are those of the revocation key subpackets, in order, each with its fingerprint, algorithm and whether it is sensitive. -/
theorem C84_revocation_keys_read (s : SigObj) (l : List RevInfo) (h : s.revocationKeys = .ok l) :
    List.Forall₂ (fun x (r : RevInfo) => ∃ critical, x = Sub.plain critical (.revocationKey r.fingerprint r.alg r.sensitive))
      ((s.hashed ++ s.unhashed).filter (fun x => x.type = 12)) l := by
  have key : ∀ (xs : List Sub) l, xs.mapM RevInfo.ofSub = .ok l →
      List.Forall₂ (fun x (r : RevInfo) => ∃ critical, x = Sub.plain critical (.revocationKey r.fingerprint r.alg r.sensitive)) xs l := by
    intro xs
    induction xs with
    | nil => intro l h; cases h; exact .nil
    | cons x xs ih =>
      intro l h
      rw [List.mapM_cons] at h
      obtain ⟨r, hr, h⟩ := except_bind_eq_ok.mp h
      obtain ⟨l', hl, h⟩ := except_bind_eq_ok.mp h
      cases h
      refine .cons ?_ (ih l' hl)
      unfold RevInfo.ofSub at hr
      split at hr
      · cases hr; exact ⟨_, rfl⟩
      · cases hr
  exact key _ l h

example := C84_revocation_keys_read { exObj with hashed := [.plain true (.revocationKey (List.replicate 40 'A') 17 true)] } [⟨17, List.replicate 40 'A', true⟩] rfl

/-! ### Trust and revocation reason -/

/-- A trust signature of depth 1 and amount 120. -/
def exTrusted : SigObj := { exObj with hashed := exObj.hashed ++ [.plain false (.trust 1 120)] }

/-- Without a trust subpacket. -/
theorem subs_nil_iff (s : SigObj) (ty : Nat) : s.subs ty = [] ↔ ∀ x ∈ s.hashed ++ s.unhashed, x.type ≠ ty := by
  rw [SigObj.subs, List.filter_eq_nil_iff]
  simp

/-- C84 fails: the trust depth and amount of a signature that has them cannot be read. -/
theorem C84_trust_refuted (s : SigObj) (x : Sub) (hx : x ∈ s.hashed ++ s.unhashed) (ht : x.type = 5) :
    Raises (TrustObj.mk s none none).trustAmount ∧ Raises (TrustObj.mk s none none).trustDepth := by
  simp only [TrustObj.trustAmount, TrustObj.trustDepth, trustGet]
  cases h : s.subs 5 with
  | nil => exact absurd ht ((subs_nil_iff s 5).mp h x hx)
  | cons a l => exact ⟨⟨_, rfl⟩, ⟨_, rfl⟩⟩

example := C84_trust_refuted exTrusted (.plain false (.trust 1 120)) (by simp [exTrusted]) rfl

/-- C84 fails: assigning the trust depth or amount never changes what is written: it either raises (without a trust subpacket) or leaves every subpacket as it was,
although the object then reports the value assigned. -/
theorem C84_trust_not_written_refuted (t t' : TrustObj) (v : Scalar) (h : t.setTrustAmount v = .ok t' ∨ t.setTrustDepth v = .ok t') :
    t'.sig = t.sig ∧ (∃ x ∈ t.sig.hashed ++ t.sig.unhashed, x.type = 5) ∧ (t.setTrustAmount v = .ok t' → t'.trustAmount = .ok (some v) ∧ t'.depth = t.depth) ∧
      (t.setTrustDepth v = .ok t' → t'.trustDepth = .ok (some v) ∧ t'.amount = t.amount) := by
  cases hs : t.sig.subs 5 with
  | nil => simp only [TrustObj.setTrustAmount, TrustObj.setTrustDepth, hs] at h; rcases h with h | h <;> cases h
  | cons a l =>
    have ha : a ∈ t.sig.subs 5 := by rw [hs]; exact List.mem_cons_self
    obtain ⟨h1, h2⟩ := mem_subs.mp ha
    simp only [TrustObj.setTrustAmount, TrustObj.setTrustDepth, hs] at h ⊢
    refine ⟨?_, ⟨a, h1, h2⟩, ?_, ?_⟩
    · rcases h with h | h <;> cases h <;> rfl
    · intro h; cases h; exact ⟨by simp only [TrustObj.trustAmount, trustGet, hs], rfl⟩
    · intro h; cases h; exact ⟨by simp only [TrustObj.trustDepth, trustGet, hs], rfl⟩

example := C84_trust_not_written_refuted ⟨exTrusted, none, none⟩ _ (.num 60) (.inl rfl)

/-- C84. A signature without a trust subpacket reports no trust. -/
theorem C84_no_trust (t : TrustObj) (h : ∀ x ∈ t.sig.hashed ++ t.sig.unhashed, x.type ≠ 5) :
    t.trustAmount = .ok none ∧ t.trustDepth = .ok none ∧ ∀ v, Raises (t.setTrustAmount v) ∧ Raises (t.setTrustDepth v) := by
  have h := (subs_nil_iff t.sig 5).mpr h
  simp only [TrustObj.trustAmount, TrustObj.trustDepth, trustGet, TrustObj.setTrustAmount, TrustObj.setTrustDepth, h]
  exact ⟨trivial, trivial, fun v => ⟨⟨_, rfl⟩, ⟨_, rfl⟩⟩⟩

example := C84_no_trust ⟨exObj, none, none⟩ (by intro x hx; simp [exObj] at hx; rcases hx with rfl | rfl | rfl | rfl <;> decide)

/-- C84 fails: the text of a revocation reason can never be read, whatever subpackets there are and whatever was assigned; assigning it changes the trust amount. -/
theorem C84_reason_refuted (t : TrustObj) : (∀ v, t.revocationReason ≠ .ok (some v)) ∧
    ∀ v t', t.setRevocationReason v = .ok t' → t'.sig = t.sig ∧ t'.trustAmount = .ok (some v) ∧ Raises t'.revocationReason := by
  constructor
  · intro v h
    simp only [TrustObj.revocationReason, trustGet] at h
    cases hs : t.sig.subs 5 <;> rw [hs] at h <;> cases h
  · intro v t' h
    unfold TrustObj.setRevocationReason at h
    obtain ⟨h1, _, h3, _⟩ := C84_trust_not_written_refuted t t' v (.inl h)
    refine ⟨h1, (h3 h).1, ?_⟩
    unfold TrustObj.setTrustAmount at h
    split at h
    · cases h
    · rename_i hs
      cases h
      exact ⟨.attributeError, by simp only [TrustObj.revocationReason, trustGet, hs]⟩

example := (C84_reason_refuted ⟨exTrusted, none, none⟩).2 (.text "why".toList) _ rfl

/-! ### Revocation code -/

/-- A revocation with reason. -/
def exRevoking : SigObj := { exObj with sigType := 0x20, hashed := exObj.hashed ++ [.plain false (.revocationReason 1 "superseded".toList)] }

theorem withCode_type (v : Nat) (x : Sub) : (withCode v x).type = x.type := by
  cases x with
  | embedded c s => rfl
  | plain c p => cases p <;> rfl

/-- C84 (part that holds). If the signature states a revocation reason, assigning its code and reading it gives the code assigned; the reason text and all other
subpackets stay. -/
theorem C84_code_set_get_partial (s : SigObj) (hr : Regular s) (x : Sub) (hx : x ∈ s.hashed ++ s.unhashed) (ht : x.type = 29) (v : Nat) :
    ∃ s', s.setRevocationCode v = .ok s' ∧ s'.revocationCode = .ok (some v) ∧ (∀ ty, ty ≠ 29 → s'.subs ty = s.subs ty) ∧
      ∀ c r, Sub.plain c (.revocationReason v r) ∈ s'.subs 29 ↔ ∃ w, Sub.plain c (.revocationReason w r) ∈ s.subs 29 := by
  have hreg : ∀ y ∈ s.subs 29, ∃ c w r, y = .plain c (.revocationReason w r) := by
    intro y hy
    obtain ⟨hm, hty⟩ := mem_subs.mp hy
    cases y with
    | embedded c z => exact absurd hty (show ¬(32 : Nat) = 29 by decide)
    | plain c p =>
      cases p with
      | revocationReason w r => exact ⟨c, w, r, rfl⟩
      | other t =>
        exfalso
        have hty : t = 29 := hty
        rcases List.mem_append.mp hm with hm | hm
        · exact hr.1 _ hm c t rfl (by rw [hty]; decide)
        · exact hr.2 _ hm c t rfl (by rw [hty]; decide)
      | _ => revert hty; simp [Sub.type, Plain.type]
  have hmap : ∀ (ty : Nat) (l : List Sub), (l.map (withCode v)).filter (fun x => x.type = ty) = (l.filter (fun x => x.type = ty)).map (withCode v) := by
    intro ty l
    rw [List.filter_map]
    congr 1
    apply List.filter_congr
    intro y _
    simp only [Function.comp, withCode_type]
  cases hs : s.subs 29 with
  | nil => exact absurd ht ((subs_nil_iff s 29).mp hs x hx)
  | cons a l =>
    let s' : SigObj := { s with hashed := s.hashed.map (withCode v), unhashed := s.unhashed.map (withCode v) }
    have hsub : ∀ ty, s'.subs ty = (s.subs ty).map (withCode v) := by
      intro ty
      simp only [s', SigObj.subs, List.filter_append, hmap, List.map_append]
    refine ⟨s', ?_, ?_, ?_, ?_⟩
    · simp only [SigObj.setRevocationCode, hs, s']
    · obtain ⟨c, w, r, rfl⟩ := hreg a (by rw [hs]; exact List.mem_cons_self)
      simp only [SigObj.revocationCode, hsub, hs, List.map_cons, withCode, codeOf, except_bind_ok, except_pure]
    · intro ty hty
      rw [hsub]
      have : ∀ y ∈ s.subs ty, withCode v y = y := by
        intro y hy
        have := (mem_subs.mp hy).2
        cases y with
        | embedded c z => rfl
        | plain c p =>
          cases p with
          | revocationReason w r => exact absurd this.symm hty
          | _ => rfl
      rw [List.map_congr_left this, List.map_id']
    · intro c r
      rw [hsub, ← hs, List.mem_map]
      constructor
      · rintro ⟨y, hy, e⟩
        obtain ⟨c', w, r', rfl⟩ := hreg y hy
        simp only [withCode, Sub.plain.injEq, Plain.revocationReason.injEq, true_and] at e
        obtain ⟨rfl, rfl⟩ := e
        exact ⟨w, hy⟩
      · rintro ⟨w, hy⟩
        exact ⟨_, hy, rfl⟩

example := C84_code_set_get_partial exRevoking (by constructor <;> intro x hx c t he <;> subst he <;> simp [exRevoking, exObj] at hx) (.plain false (.revocationReason 1 "superseded".toList))
  (by simp [exRevoking]) rfl 3

/-- C84 fails: a revocation code cannot be given to a signature without one. -/
theorem C84_first_code_refuted (s : SigObj) (h : ∀ x ∈ s.hashed ++ s.unhashed, x.type ≠ 29) (v : Nat) :
    s.revocationCode = .ok none ∧ Raises (s.setRevocationCode v) := by
  have h := (subs_nil_iff s 29).mpr h
  simp only [SigObj.revocationCode, SigObj.setRevocationCode, h]
  exact ⟨trivial, ⟨_, rfl⟩⟩

example := C84_first_code_refuted exObj (by intro x hx; simp [exObj] at hx; rcases hx with rfl | rfl | rfl | rfl <;> decide) 2

/-! ### The issuer's user id -/

/-- C84 (part that holds). The name and address of the issuer are those in the user id given in the signature (for user ids without a comment). -/
theorem C84_issuer_parts_partial (s s' : SigObj) (hr : Regular s) (ws : List Str) (hw : ∀ w ∈ ws, NameWord w) (loc dom : Str) (hl : AddrText loc) (hne : loc ≠ []) (hd : AddrText dom)
    (h : s.set .issuerUserId (plainId ws loc dom) = .ok s') : s'.issuerParts = .ok (some (pyJoin [' '] ws, loc ++ '@' :: dom, [])) := by
  rw [SigObj.issuerParts, C52_set_get_partial s s' hr .issuerUserId _ h, except_bind_ok]
  simp only [C58_name_and_address_partial ws hw loc dom hl hne hd, except_bind_ok, except_pure]

example := C84_issuer_parts_partial exObj _ exObj_regular ["J.".toList, "Hacker".toList] (by simp only [NameWord]; decide +kernel) "j.r".toList "example.org".toList
  (by simp only [AddrText]; decide +kernel) (by decide) (by simp only [AddrText]; decide +kernel) rfl

end Pgp.Props
