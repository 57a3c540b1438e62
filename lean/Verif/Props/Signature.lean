import Verif.Lemmas.Signature
import Verif.Props.SigPackets
import Mathlib.Data.List.Dedup
/-
Property theorems C52: signature attribute accessors.
-/
namespace Pgp.Props
open Pgp Pgp.Spec

/-- A version 4 certification made at second 1000000000 by `0123456789ABCDEF`, with key flags and preferences. -/
def exObj : SigObj :=
  ⟨4, 0x13, 1, 8, none, none,
    [.plain false (.creationTime 1000000000), .plain false (.keyFlags ⟨true, true, false, false, false, false, false⟩), .plain true (.prefSym [9, 2])],
    [.plain false (.issuer "0123456789ABCDEF".toList)], [1, 2], [some 77], .new⟩

theorem exObj_regular : Regular exObj := by
  constructor <;> intro x hx c t he <;> subst he <;> simp [exObj] at hx

theorem exObj_flags : HasFlags exObj := ⟨.plain false (.keyFlags ⟨true, true, false, false, false, false, false⟩), by simp [exObj], rfl⟩

/-! ### Setting and reading one property -/

/-- C52 (part that holds). Setting a property of a signature and reading it gives the value set, whatever the signature held before. -/
theorem C52_set_get_partial (s s' : SigObj) (hr : Regular s) (f : Field) (v : f.Val) (h : s.set f v = .ok s') : s'.get f = .ok (some v) := by
  rcases subs_set_own s s' f v h with ⟨_, p, hp, hs⟩ | ⟨hne, hs⟩
  · rw [SigObj.get, hs]
    simp only [Field.read, (construct_spec f v p hp).2.1]
    rfl
  · cases hl : s.subs f.subType with
    | nil => exact absurd hl hne
    | cons x l =>
      have hx : x ∈ s.subs f.subType := by rw [hl]; exact List.mem_cons_self
      rw [SigObj.get, hs, hl]
      simp only [List.map_cons]
      rw [read_write f v x (mem_subs.mp hx).2 (regular_subs hr (subType_known f) hx)]
      rfl

example := C52_set_get_partial exObj _ exObj_regular .prefSym [7, 8] rfl

/-- C52. Setting succeeds, except for a new list of algorithms not made of octets. -/
theorem C52_set_succeeds (s : SigObj) (f : Field) (v : f.Val)
    (hv : match f, v with
      | .prefComp, l => ∀ x ∈ l, x < 256
      | .prefHash, l => ∀ x ∈ l, x < 256
      | .prefSym, l => ∀ x ∈ l, x < 256
      | _, _ => True) : ∃ s', s.set f v = .ok s' := by
  have hc : ∃ p, f.construct v = .ok p := by
    cases f
    case prefComp =>
      refine ⟨.prefComp v, ?_⟩
      have : v.all (· < 256) = true := by simpa using hv
      simp only [Field.construct, algsOk, this, pyAssert]; rfl
    case prefHash =>
      refine ⟨.prefHash v, ?_⟩
      have : v.all (· < 256) = true := by simpa using hv
      simp only [Field.construct, algsOk, this, pyAssert]; rfl
    case prefSym =>
      refine ⟨.prefSym v, ?_⟩
      have : v.all (· < 256) = true := by simpa using hv
      simp only [Field.construct, algsOk, this, pyAssert]; rfl
    all_goals exact ⟨_, rfl⟩
  obtain ⟨p, hp⟩ := hc
  unfold SigObj.set
  split
  · rw [hp]; exact ⟨_, rfl⟩
  · exact ⟨_, rfl⟩

example := C52_set_succeeds exObj .prefSym [7, 8] (by intro x hx; revert x hx; decide)

/-- C52. Setting a property changes no subpacket of another type, nor their order, nor anything else in the signature. -/
theorem C52_only_own_subpackets (s s' : SigObj) (f : Field) (v : f.Val) (h : s.set f v = .ok s') :
    (∀ ty, ty ≠ f.subType → s'.subs ty = s.subs ty) ∧ s'.version = s.version ∧ s'.sigType = s.sigType ∧ s'.pubAlg = s.pubAlg ∧
    s'.hashAlg = s.hashAlg ∧ s'.created = s.created ∧ s'.keyId = s.keyId ∧ s'.hash2 = s.hash2 ∧ s'.values = s.values ∧ s'.fmt = s.fmt := by
  refine ⟨fun ty hty => subs_set_other s s' f v h ty hty, ?_⟩
  rcases set_cases s s' f v h with ⟨_, p, _, rfl⟩ | ⟨_, rfl⟩ <;> exact ⟨rfl, rfl, rfl, rfl, rfl, rfl, rfl, rfl, rfl⟩

example := C52_only_own_subpackets exObj _ .prefSym [7, 8] rfl

/-- Two properties kept in the same type of subpacket are equal, are key flags, or are the pair `exportable`, `revocable`. -/
theorem same_subType (f g : Field) (h : f.subType = g.subType) : f = g ∨ BothFlags f g ∨ ¬Separate f g := by
  cases f <;> cases g <;> first
    | exact .inl rfl
    | exact .inr (.inl ⟨⟨_, rfl⟩, _, rfl⟩)
    | exact .inr (.inr (fun hs => hs.1 ⟨rfl, rfl⟩))
    | exact .inr (.inr (fun hs => hs.2 ⟨rfl, rfl⟩))
    | simp [Field.subType] at h

theorem hasFlags_iff (s : SigObj) : HasFlags s ↔ s.subs 27 ≠ [] := by
  constructor
  · rintro ⟨x, hx, ht⟩ he
    have := mem_subs.mpr ⟨hx, ht⟩
    rw [he] at this
    cases this
  · intro h
    obtain ⟨x, hx⟩ := List.exists_mem_of_ne_nil _ h
    exact ⟨x, mem_subs.mp hx⟩

/-- C52 (part that holds). Setting a property does not change what another one reads, if the two are not the pair `exportable`, `revocable`, and not two
key flags of a signature without a key flags subpacket. -/
theorem C52_others_kept_partial (s s' : SigObj) (f g : Field) (v : f.Val) (h : s.set f v = .ok s') (hne : f ≠ g) (hs : Separate f g)
    (hf : BothFlags f g → HasFlags s) : s'.get g = s.get g := by
  by_cases ht : g.subType = f.subType
  · rcases same_subType f g ht.symm with he | hb | hn
    · exact absurd he hne
    · have hfl := (hasFlags_iff s).mp (hf hb)
      obtain ⟨⟨x, rfl⟩, y, rfl⟩ := hb
      rcases subs_set_own s s' _ v h with ⟨he, _⟩ | ⟨_, hs'⟩
      · exact absurd he hfl
      · have e1 : s'.subs 27 = (s.subs 27).map ((Field.flag x).write v) := hs'
        simp only [SigObj.get, Field.subType]
        rw [e1]
        cases hl : s.subs 27 with
        | nil => exact absurd hl hfl
        | cons z l =>
          simp only [List.map_cons]
          rw [read_write_ne (.flag x) (.flag y) v z hne hs]
    · exact absurd hs hn
  · rw [SigObj.get, SigObj.get, subs_set_other s s' f v h _ ht]

example := C52_others_kept_partial exObj _ (.flag .auth) (.flag .sign) true rfl (by decide) ⟨by decide, by decide⟩ (fun _ => exObj_flags)

theorem set_hasFlags (s s' : SigObj) (f : Field) (v : f.Val) (h : s.set f v = .ok s') (hf : HasFlags s) : HasFlags s' := by
  rw [hasFlags_iff] at hf ⊢
  by_cases ht : 27 = f.subType
  · rcases subs_set_own s s' f v h with ⟨he, _⟩ | ⟨_, hs'⟩
    · rw [← ht] at he; exact absurd he hf
    · rw [← ht] at hs'; rw [hs']; simpa using hf
  · rw [subs_set_other s s' f v h 27 ht]; exact hf

/-- C52 (part that holds). After any sequence of assignments every property reads as the value last assigned to it, and as before if none was: for a property that
is not confused with another assigned one (see `C52_revocable_is_exportable` and `C52_first_flag_sets_all`). -/
theorem C52_history_partial (s s' : SigObj) (hr : Regular s) (g : Field) (h : List Assign) (hrun : assignAll s h = .ok s')
    (hc : ∀ a ∈ h, a.1 ≠ g → Separate a.1 g ∧ (BothFlags a.1 g → HasFlags s)) :
    s'.get g = match lastValue g h with
      | some v => .ok (some v)
      | none => s.get g := by
  induction h generalizing s with
  | nil => cases hrun; rfl
  | cons a l ih =>
    obtain ⟨s1, h1, hrun⟩ := except_bind_eq_ok.mp hrun
    have hr1 := set_regular s s1 a.1 a.2 h1 hr
    have hc1 : ∀ b ∈ l, b.1 ≠ g → Separate b.1 g ∧ (BothFlags b.1 g → HasFlags s1) := fun b hb hne =>
      ⟨(hc b (List.mem_cons_of_mem _ hb) hne).1, fun hbf =>
        set_hasFlags s s1 a.1 a.2 h1 ((hc b (List.mem_cons_of_mem _ hb) hne).2 hbf)⟩
    rw [ih s1 hr1 hrun hc1]
    cases hl : lastValue g l with
    | some v => simp only [lastValue, hl]
    | none =>
      simp only [lastValue, hl]
      by_cases he : a.1 = g
      · rw [dif_pos he]
        obtain ⟨f, v⟩ := a
        cases he
        exact C52_set_get_partial s s1 hr f v h1
      · rw [dif_neg he]
        obtain ⟨hs, hf⟩ := hc a List.mem_cons_self he
        exact C52_others_kept_partial s s1 a.1 g a.2 h1 he hs hf

example := C52_history_partial exObj _ exObj_regular .prefSym [⟨.prefSym, [7]⟩, ⟨.flag .encComms, true⟩, ⟨.prefSym, [9, 8]⟩] rfl
  (fun a _ _ => ⟨⟨fun h => absurd h.2 (by decide), fun h => absurd h.2 (by decide)⟩, fun _ => exObj_flags⟩)

/-! ### Where it fails -/

/-- C52 fails: `revocable` is another name for `exportable`: setting one changes the other, and the Revocable subpacket is never consulted. -/
theorem C52_revocable_is_exportable (s s' : SigObj) (hr : Regular s) (b : Bool) :
    s.get .revocable = s.get .exportable ∧
    (s.set .revocable b = .ok s' → s'.get .exportable = .ok (some b)) ∧
    (s.set .exportable b = .ok s' → s'.get .revocable = .ok (some b)) := by
  have e : ∀ z : SigObj, z.get .revocable = z.get .exportable := by
    intro z
    simp only [SigObj.get, Field.subType]
    cases z.subs 4 with
    | nil => rfl
    | cons x l =>
      have : Field.read .revocable x = Field.read .exportable x := by
        cases x with
        | embedded c s => rfl
        | plain c p => cases p <;> rfl
      simp only [this]
  refine ⟨e s, fun h => ?_, fun h => ?_⟩
  · rw [← e]; exact C52_set_get_partial s s' hr .revocable b h
  · rw [e]; exact C52_set_get_partial s s' hr .exportable b h

example := C52_revocable_is_exportable exObj exObj exObj_regular false

/-- C52 fails: setting one key flag of a signature without key flags sets all the others, which read as absent before. -/
theorem C52_first_flag_sets_all (s s' : SigObj) (hf : ¬HasFlags s) (x y : Flag) (hxy : x ≠ y) (b : Bool) (h : s.set (.flag x) b = .ok s') :
    s.get (.flag y) = .ok none ∧ s'.get (.flag y) = .ok (some true) := by
  have he : s.subs 27 = [] := by
    cases hl : s.subs 27 with
    | nil => rfl
    | cons z l => exact absurd ((hasFlags_iff s).mpr (by rw [hl]; simp)) hf
  refine ⟨by simp only [SigObj.get, Field.subType, he], ?_⟩
  rcases subs_set_own s s' (.flag x) b h with ⟨_, p, hp, hs⟩ | ⟨hn, _⟩
  · have hs : s'.subs 27 = [.plain false p] := hs
    simp only [SigObj.get, Field.subType, hs]
    cases hp
    simp only [Field.read, Field.getattr]
    rw [keyFlags_get_set_ne _ _ _ _ hxy]
    cases y <;> rfl
  · exact absurd he hn

example := C52_first_flag_sets_all { exObj with hashed := [] } _ (by rw [hasFlags_iff]; exact fun h => h rfl) .sign .certify (by decide) false rfl

/-- C52 fails: the creation time of a signature can never be set. -/
theorem C52_creation_time_cannot_be_set (s : SigObj) (t : Int) : Raises (s.setCreationTime t) := ⟨_, rfl⟩

/-- C52 fails: the creation time and the issuers of a version 2 or 3 signature can never be read, and hence the signature can never be turned back into a
packet. -/
theorem C52_v3_unreadable (s : SigObj) (hv : s.version = 2 ∨ s.version = 3) : Raises s.creationTime ∧ Raises s.issuers ∧ Raises s.toPacket := by
  have h4 : ¬s.version ≥ 4 := by omega
  refine ⟨⟨.typeError, by simp only [SigObj.creationTime, if_pos hv]⟩, ⟨.attributeError, by simp only [SigObj.issuers, if_pos hv]⟩, .typeError, ?_⟩
  simp only [SigObj.toPacket, if_neg h4, if_pos hv, SigObj.creationTime]
  rfl

example := C52_v3_unreadable { exObj with version := 3 } (.inr rfl)

/-! ### Reading and writing packets -/

theorem parsePlain_other (ty : Nat) (d : Bytes) (t : Nat) (hty : ty ≠ 32) (h : parsePlain ty d = .ok (.other t)) : t ∉ knownTypes := by
  unfold parsePlain at h
  split at h
  case h_24 => 
    cases h
    simp_all [knownTypes]
  all_goals first
    | (cases h; done)
    | (obtain ⟨x, hx, h⟩ := except_bind_eq_ok.mp h; cases h; done)
    | skip
  · simp only [readTrust] at h
    obtain ⟨_, _, h⟩ := except_bind_eq_ok.mp h
    obtain ⟨_, _, h⟩ := except_bind_eq_ok.mp h
    obtain ⟨_, _, h⟩ := except_bind_eq_ok.mp h
    cases h
  · simp only [readRegex] at h
    obtain ⟨_, _, h⟩ := except_bind_eq_ok.mp h
    obtain ⟨_, _, h⟩ := except_bind_eq_ok.mp h
    cases h
  · simp only [readAdditionalRecipient] at h
    obtain ⟨_, _, h⟩ := except_bind_eq_ok.mp h
    obtain ⟨_, _, h⟩ := except_bind_eq_ok.mp h
    obtain ⟨_, _, h⟩ := except_bind_eq_ok.mp h
    cases h
  · simp only [readIssuer] at h
    obtain ⟨_, _, h⟩ := except_bind_eq_ok.mp h
    obtain ⟨_, _, h⟩ := except_bind_eq_ok.mp h
    cases h
  · simp only [readNote] at h
    obtain ⟨_, _, h⟩ := except_bind_eq_ok.mp h
    obtain ⟨_, _, h⟩ := except_bind_eq_ok.mp h
    obtain ⟨_, _, h⟩ := except_bind_eq_ok.mp h
    obtain ⟨_, _, h⟩ := except_bind_eq_ok.mp h
    obtain ⟨_, _, h⟩ := except_bind_eq_ok.mp h
    obtain ⟨_, _, h⟩ := except_bind_eq_ok.mp h
    obtain ⟨_, _, h⟩ := except_bind_eq_ok.mp h
    cases h
  · simp only [readTarget] at h
    obtain ⟨_, _, h⟩ := except_bind_eq_ok.mp h
    obtain ⟨_, _, h⟩ := except_bind_eq_ok.mp h
    obtain ⟨_, _, h⟩ := except_bind_eq_ok.mp h
    obtain ⟨_, _, h⟩ := except_bind_eq_ok.mp h
    obtain ⟨_, _, h⟩ := except_bind_eq_ok.mp h
    cases h

theorem parseSubs_regular (data : Bytes) (n : Nat) : ∀ off stop l o, data.length - off ≤ n → parseSubs data off stop = .ok (l, o) → RegularSubs l := by
  induction n with
  | zero =>
    intro off stop l o hn h
    rw [parseSubs] at h
    split at h
    · split at h
      · cases h
      · split at h
        · rename_i hh; omega
        · cases h
    · cases h; intro x hx; cases hx
  | succ n ih =>
    intro off stop l o hn h
    rw [parseSubs] at h
    split at h
    · split at h
      · cases h
      · rename_i ty critical sub off' hsub
        split at h
        · rename_i hh
          obtain ⟨s, hs, h⟩ := except_bind_eq_ok.mp h
          obtain ⟨⟨l', o'⟩, hl, h⟩ := except_bind_eq_ok.mp h
          cases h
          have hreg := ih off' stop l' _ (by omega) hl
          intro x hx c t he
          rcases List.mem_cons.mp hx with rfl | hx
          · split at hs
            · obtain ⟨_, _, hs⟩ := except_bind_eq_ok.mp hs
              cases hs; cases he
            · rename_i h32
              obtain ⟨v, hv, hs⟩ := except_bind_eq_ok.mp hs
              cases hs; cases he
              exact parsePlain_other ty sub t h32 hv
          · exact hreg x hx c t he
        · cases h
    · cases h; intro x hx; cases hx

/-- C52. Every signature object read from octets satisfies the hypothesis `Regular` of the theorems above. -/
theorem C52_parsed_regular (fmt : HeaderFormat) (data : Bytes) (sig : Sig) (s : SigObj) (hp : parseSig data = .ok sig) (hs : SigObj.fromPacket fmt sig = .ok s) : Regular s := by
  rw [parseSig] at hp
  obtain ⟨v, _, hp⟩ := except_bind_eq_ok.mp hp
  split at hp
  · unfold parseSigV3 at hp
    obtain ⟨_, _, hp⟩ := except_bind_eq_ok.mp hp
    split at hp
    · cases hp
    · obtain ⟨_, _, hp⟩ := except_bind_eq_ok.mp hp
      obtain ⟨_, _, hp⟩ := except_bind_eq_ok.mp hp
      obtain ⟨_, _, hp⟩ := except_bind_eq_ok.mp hp
      obtain ⟨_, _, hp⟩ := except_bind_eq_ok.mp hp
      obtain ⟨_, _, hp⟩ := except_bind_eq_ok.mp hp
      obtain ⟨_, _, hp⟩ := except_bind_eq_ok.mp hp
      cases hp
      simp only [SigObj.fromPacket] at hs
      split at hs
      · cases hs; exact ⟨nofun, nofun⟩
      · cases hs
  · split at hp
    · obtain ⟨_, _, hp⟩ := except_bind_eq_ok.mp hp
      obtain ⟨_, _, hp⟩ := except_bind_eq_ok.mp hp
      obtain ⟨_, _, hp⟩ := except_bind_eq_ok.mp hp
      obtain ⟨_, _, hp⟩ := except_bind_eq_ok.mp hp
      obtain ⟨⟨l1, o1⟩, h1, hp⟩ := except_bind_eq_ok.mp hp
      obtain ⟨_, _, hp⟩ := except_bind_eq_ok.mp hp
      obtain ⟨⟨l2, o2⟩, h2, hp⟩ := except_bind_eq_ok.mp hp
      obtain ⟨_, _, hp⟩ := except_bind_eq_ok.mp hp
      cases hp
      simp only [SigObj.fromPacket] at hs
      split at hs
      · cases hs
        exact ⟨parseSubs_regular data _ _ _ _ _ (Nat.le_refl _) h1, parseSubs_regular data _ _ _ _ _ (Nat.le_refl _) h2⟩
      · cases hs
    · cases hp

example : ∃ data s, parseSig data = .ok exFit ∧ SigObj.fromPacket .new exFit = .ok s ∧ Regular s :=
  let ⟨data, _, h⟩ := C25_signature_roundtrip Nat.log2 exFit exFit_ok
  ⟨data, _, h, rfl, C52_parsed_regular .new data exFit _ h rfl⟩

/-- C52. Serialisation reflects the value set: written to octets and read again (in a signature that fits the format), the property has it. -/
theorem C52_serialised (fl : Nat → Nat) (fmt : HeaderFormat) (s s' : SigObj) (hr : Regular s) (f : Field) (v : f.Val) (h : s.set f v = .ok s') (sig : Sig)
    (hp : s'.toPacket = .ok sig) (hok : SigOk fl sig) :
    ∃ data, Sig.content fl sig = .ok data ∧ parseSig data = .ok sig ∧ ∃ s'', SigObj.fromPacket fmt sig = .ok s'' ∧ s''.get f = .ok (some v) := by
  obtain ⟨data, h1, h2⟩ := C25_signature_roundtrip fl sig hok
  refine ⟨data, h1, h2, ?_⟩
  have hv : s'.version ≥ 4 := by
    by_cases hv : s'.version ≥ 4
    · exact hv
    · exfalso
      unfold SigObj.toPacket at hp
      rw [if_neg hv] at hp
      split at hp
      · rename_i h23
        obtain ⟨_, h, _⟩ := except_bind_eq_ok.mp hp
        simp only [SigObj.creationTime, if_pos h23] at h
        cases h
      · cases hp
  unfold SigObj.toPacket at hp
  rw [if_pos hv] at hp
  cases hp
  refine ⟨{ s' with created := none, keyId := none, fmt := fmt }, ?_, ?_⟩
  · simp only [SigObj.fromPacket]
    rw [if_pos hv]
  · have := C52_set_get_partial s s' hr f v h
    exact this

example := C52_serialised Nat.log2 .new ⟨4, 0, 1, 8, none, none, [.plain false (.creationTime 1000000000)], [], [1, 2], [some 5], .new⟩ _
  ⟨by intro x hx c t he; subst he; simp at hx, by intro x hx; simp at hx⟩ .exportable false rfl _ rfl
  (SigOk.v4 (values := [5]) (by decide) (by decide) (by decide)
    (by
      intro s hs
      simp only [List.nil_append, List.cons_append, List.mem_cons, List.not_mem_nil, or_false] at hs
      rcases hs with rfl | rfl <;> exact .plain (by simp [PlainOk]))
    (by simp) ⟨[5, 2, 59, 154, 202, 0, 2, 4, 0], by decide +kernel, by decide⟩ ⟨[], by decide +kernel, by decide⟩ rfl
    (fun i hi => by
      simp only [List.mem_singleton] at hi
      subst hi
      exact logRoom_of_exact rfl (Nat.lt_of_lt_of_le (by decide : 5 < 2 ^ 3) (Nat.pow_le_pow_right (by omega) (by omega)))))

/-! ### Dates and issuers -/

/-- Every creation time and expiration subpacket is of its own class, as in every signature read from octets. -/
theorem timeOf_cons {s : SigObj} (hr : Regular s) {x : Sub} {l : List Sub} (h : s.subs 3 = x :: l) : ∃ c t, x = .plain c (.expiration t) := by
  have hx : x ∈ s.subs 3 := by rw [h]; exact List.mem_cons_self
  have ho := regular_subs hr (ty := 3) (by decide) hx
  have ht := (mem_subs.mp hx).2
  cases x with
  | embedded c s => simp [Sub.type] at ht
  | plain c p =>
    cases p with
    | expiration t => exact ⟨c, t, rfl⟩
    | other t => exact absurd rfl (ho c t)
    | _ => simp [Sub.type, Plain.type] at ht

/-- What writing the expiration does to the subpackets of each type. -/
theorem subs_setTime (s : SigObj) (t : Nat) :
    (∀ ty, ty ≠ 3 → (s.setTime 3 .expiration t).subs ty = s.subs ty) ∧
    (s.subs 3 = [] → (s.setTime 3 .expiration t).subs 3 = [.plain false (.expiration t)]) ∧
    (∀ x l, Regular s → s.subs 3 = x :: l → ∃ c l', (s.setTime 3 .expiration t).subs 3 = .plain c (.expiration t) :: l') := by
  have hmap : ∀ (upd : Sub → Sub) (hu : ∀ x, (upd x).type = x.type) (ty : Nat) (l : List Sub),
      (l.map upd).filter (fun x => x.type = ty) = (l.filter (fun x => x.type = ty)).map upd := by
    intro upd hu ty l
    induction l with
    | nil => rfl
    | cons x l ih =>
      simp only [List.map_cons, List.filter_cons, hu, ih]
      split <;> rfl
  have hid : ∀ (upd : Sub → Sub) (l : List Sub), (∀ x ∈ l, upd x = x) → l.map upd = l := by
    intro upd l h
    conv => rhs; rw [← List.map_id l]
    exact List.map_congr_left h
  refine ⟨?_, ?_, ?_⟩
  · intro ty hty
    unfold SigObj.setTime
    split
    · have h3 : (Sub.plain false (.expiration t)).type = 3 := rfl
      simp only [SigObj.subs, List.filter_append, List.filter_cons, h3, List.filter_nil]
      rw [if_neg (by simpa using Ne.symm hty)]
      simp
    · simp only [SigObj.subs]
      rw [← List.map_append, hmap, hid]
      · intro x hx
        have : x.type = ty := by simpa using (List.mem_filter.mp hx).2
        cases x with
        | embedded c s => rfl
        | plain c p =>
          have hp : p.type = ty := this
          show (if p.type = 3 then _ else _) = _
          rw [if_neg (by omega)]
      · intro x
        cases x with
        | embedded c s => rfl
        | plain c p =>
          show (if p.type = 3 then _ else _ : Sub).type = _
          split
          · rename_i h; show 3 = p.type; exact h.symm
          · rfl
  · intro he
    have h1 : s.hashed.filter (fun x => x.type = 3) = [] ∧ s.unhashed.filter (fun x => x.type = 3) = [] := by
      simpa [SigObj.subs] using he
    have h3 : (Sub.plain false (.expiration t)).type = 3 := rfl
    rw [SigObj.setTime, he]
    simp only [SigObj.subs, List.filter_append, List.filter_cons, h1.1, h1.2, h3, List.filter_nil]
    simp
  · intro x l hr he
    obtain ⟨c, t', rfl⟩ := timeOf_cons hr he
    simp only [SigObj.setTime, he]
    simp only [SigObj.subs] at he ⊢
    rw [← List.map_append, hmap, he]
    · exact ⟨c, _, rfl⟩
    · intro x
      cases x with
      | embedded c s => rfl
      | plain c p =>
        show (if p.type = 3 then _ else _ : Sub).type = _
        split
        · rename_i h; show 3 = p.type; exact h.symm
        · rfl

/-- C52. Setting the expiration time of a signature with creation time `c` to a date from `c` on, and reading it, gives that date to the second; the creation
time itself reads back as "never expires". -/
theorem C52_expiration_set_get (s : SigObj) (hr : Regular s) (c dt : Int) (hc : s.creationTime = .ok c) (hdt : c ≤ dt) :
    ∃ s', s.setExpirationTime (some dt) = .ok s' ∧ s'.creationTime = .ok c ∧
      s'.expirationTime = .ok (if (dt - c) / 1000000 = 0 then none else some (c + (dt - c) / 1000000 * 1000000)) := by
  obtain ⟨e2, enil, econs⟩ := subs_setTime s ((dt - c) / 1000000).toNat
  have hnn : 0 ≤ (dt - c) / 1000000 := Int.ediv_nonneg (by omega) (by omega)
  have hcast : (((dt - c) / 1000000).toNat : Int) = (dt - c) / 1000000 := Int.toNat_of_nonneg hnn
  refine ⟨s.setTime 3 .expiration ((dt - c) / 1000000).toNat, ?_, ?_, ?_⟩
  · simp only [SigObj.setExpirationTime, hc, except_bind_ok]
    rw [if_neg (by omega)]
    rfl
  · have hver : (s.setTime 3 .expiration ((dt - c) / 1000000).toNat).version = s.version := by
      unfold SigObj.setTime; split <;> rfl
    unfold SigObj.creationTime at hc ⊢
    rw [hver, e2 2 (by decide)]
    exact hc
  · have hct : (s.setTime 3 .expiration ((dt - c) / 1000000).toNat).creationTime = .ok c := by
      have hver : (s.setTime 3 .expiration ((dt - c) / 1000000).toNat).version = s.version := by
        unfold SigObj.setTime; split <;> rfl
      unfold SigObj.creationTime at hc ⊢
      rw [hver, e2 2 (by decide)]
      exact hc
    have htime : timeOf ((s.setTime 3 .expiration ((dt - c) / 1000000).toNat).subs 3) = .ok (some ((dt - c) / 1000000).toNat) := by
      cases he : s.subs 3 with
      | nil => rw [enil he]; rfl
      | cons x l =>
        obtain ⟨c', l', h⟩ := econs x l hr he
        rw [h]; rfl
    simp only [SigObj.expirationTime, htime, except_bind_ok]
    cases hn : ((dt - c) / 1000000).toNat with
    | zero =>
      have : (dt - c) / 1000000 = 0 := by omega
      rw [if_pos this]; rfl
    | succ n =>
      have hne : ¬(dt - c) / 1000000 = 0 := by omega
      rw [hn] at hct
      rw [if_neg hne]
      simp only [hct, except_bind_ok, fromTimestamp]
      rw [← hn, hcast]; rfl

example := C52_expiration_set_get exObj exObj_regular 1000000000000000 1000000060000000 rfl (by decide)

/-- C52. A date before the creation time is refused. -/
theorem C52_expiration_before_creation (s : SigObj) (c dt : Int) (hc : s.creationTime = .ok c) (hdt : dt < c) :
    s.setExpirationTime (some dt) = .error .valueError := by
  simp only [SigObj.setExpirationTime, hc, except_bind_ok, if_pos hdt]

example := C52_expiration_before_creation exObj 1000000000000000 999999999999999 rfl (by decide)

/-- C52 fails: setting the expiration time to None ("never") changes nothing, so an expiring signature stays so. -/
theorem C52_expiration_cannot_be_removed (s : SigObj) : s.setExpirationTime none = .ok s := rfl

/-- The issuers stored in a list of subpackets. -/
theorem issuerIds_append (l : List Sub) (ks : List Str) (k : Str) (h : issuerIds l = .ok ks) :
    issuerIds (l ++ [.plain false (.issuer k)]) = .ok (ks ++ [k]) := by
  induction l generalizing ks with
  | nil => cases h; rfl
  | cons x l ih =>
    cases x with
    | embedded c s => cases h
    | plain c p =>
      cases p with
      | issuer k' =>
        obtain ⟨ks', h', h⟩ := except_bind_eq_ok.mp h
        cases h
        show (issuerIds (l ++ _) >>= _) = _
        rw [ih ks' h']; rfl
      | _ => cases h

theorem issuerIds_perm {l l' : List Sub} (hp : l.Perm l') (ks : List Str) (h : issuerIds l = .ok ks) : ∃ ks', issuerIds l' = .ok ks' ∧ ks.Perm ks' := by
  have key : ∀ l : List Sub, ∀ ks, issuerIds l = .ok ks ↔ l.map (fun x => match x with | .plain _ (.issuer k) => some k | _ => none) = ks.map some := by
    intro l
    induction l with
    | nil => intro ks; cases ks <;> simp [issuerIds]
    | cons x l ih =>
      intro ks
      constructor
      · intro h
        cases x with
        | embedded c s => cases h
        | plain c p =>
          cases p with
          | issuer k' =>
            obtain ⟨ks', h', h⟩ := except_bind_eq_ok.mp h
            cases h
            simp only [List.map_cons, (ih ks').mp h']
          | _ => cases h
      · intro h
        cases ks with
        | nil => simp at h
        | cons k ks =>
          simp only [List.map_cons, List.cons.injEq] at h
          cases x with
          | embedded c s => cases h.1
          | plain c p =>
            cases p with
            | issuer k' =>
              have hk : k' = k := by simpa using h.1
              show (issuerIds l >>= _) = _
              rw [(ih ks).mpr h.2, hk]; rfl
            | _ => cases h.1
  have h1 := (key l ks).mp h
  have h2 := hp.map (fun x => match x with | .plain _ (.issuer k) => some k | _ => none)
  rw [h1] at h2
  obtain ⟨ks', h3⟩ : ∃ ks' : List Str, l'.map (fun x => match x with | .plain _ (.issuer k) => some k | _ => none) = ks'.map some := by
    have hall : ∀ y ∈ l'.map (fun x => match x with | .plain _ (.issuer k) => some k | _ => none), ∃ k, y = some k := by
      intro y hy
      have := h2.mem_iff.mpr hy
      obtain ⟨k, _, rfl⟩ := List.mem_map.mp this
      exact ⟨k, rfl⟩
    generalize l'.map (fun x => match x with | .plain _ (.issuer k) => some k | _ => none) = m at hall
    clear h2
    induction m with
    | nil => exact ⟨[], rfl⟩
    | cons y m ih =>
      obtain ⟨k, rfl⟩ := hall y List.mem_cons_self
      obtain ⟨ks', hk⟩ := ih (fun z hz => hall z (List.mem_cons_of_mem _ hz))
      exact ⟨k :: ks', by rw [List.map_cons, hk]⟩
  refine ⟨ks', (key l' ks').mpr h3, ?_⟩
  rw [h3] at h2
  have h4 := h2.filterMap id
  simpa [List.filterMap_map] using h4

/-- How the loop of the issuer setter changes the signature when the new list is not empty: it adds the ids that were not there. -/
theorem issuer_fold (fl : FloorLog2) (existing ids : List Str) (hne : ids ≠ []) (l : List Str) (s : SigObj) :
    l.foldl (issuerStep fl existing ids) s =
      { s with hashed := s.hashed ++ (l.filter (fun k => k ∉ existing)).map (fun k => .plain false (.issuer k)) } := by
  induction l generalizing s with
  | nil => simp
  | cons k l ih =>
    rw [List.foldl_cons, ih]
    by_cases hk : k ∈ existing
    · rw [issuerStep, if_pos ⟨hk, hne⟩, List.filter_cons, if_neg (by simpa using hk)]
    · rw [issuerStep, if_neg (fun h => hk h.1), if_neg hk, List.filter_cons, if_pos (by simpa using hk)]
      simp

theorem issuerIds_of_map (ks : List Str) : issuerIds (ks.map (fun k => .plain false (.issuer k))) = .ok ks := by
  induction ks with
  | nil => rfl
  | cons k ks ih =>
    show (issuerIds (ks.map _) >>= _) = _
    rw [ih]; rfl

theorem issuerIds_append_ok (a b : List Sub) (x y : List Str) (ha : issuerIds a = .ok x) (hb : issuerIds b = .ok y) :
    issuerIds (a ++ b) = .ok (x ++ y) := by
  induction a generalizing x with
  | nil => cases ha; exact hb
  | cons z a ih =>
    cases z with
    | embedded c s => cases ha
    | plain c p =>
      cases p with
      | issuer k' =>
        obtain ⟨ks', h', ha⟩ := except_bind_eq_ok.mp ha
        cases ha
        show (issuerIds (a ++ b) >>= _) = _
        rw [ih ks' h']; rfl
      | _ => cases ha

/-- C52 fails: assigning a non-empty list of issuers to a signature removes none of the previous ones: afterwards the issuers are all the previous ones together
with the new ones (each once). `order` is the order of iteration over a Python set. -/
theorem C52_issuers_only_added (fl : FloorLog2) (order : List Str → List Str) (ho : ∀ l, (order l).Nodup ∧ ∀ x, x ∈ order l ↔ x ∈ l) (s : SigObj)
    (hv : s.version ≥ 4) (existing ids : List Str) (hex : s.issuers = .ok existing) (hne : ids ≠ []) :
    ∃ s' added after, s.setIssuers fl order ids = .ok s' ∧ s'.issuers = .ok after ∧ after.Perm (existing ++ added) ∧ added.Nodup ∧
      ∀ k, k ∈ added ↔ k ∈ ids ∧ k ∉ existing := by
  have h23 : ¬(s.version = 2 ∨ s.version = 3) := by omega
  have hids : issuerIds (s.subs 16) = .ok existing := by
    simpa only [SigObj.issuers, if_neg h23, if_pos hv] using hex
  let added := (order (ids ++ existing)).filter (fun k => k ∉ existing)
  let new : List Sub := added.map (fun k => .plain false (.issuer k))
  have hsubs : ({ s with hashed := s.hashed ++ new } : SigObj).subs 16 = s.hashed.filter (fun x => x.type = 16) ++ new ++ s.unhashed.filter (fun x => x.type = 16) := by
    have hnew : new.filter (fun x => x.type = 16) = new := by
      rw [List.filter_eq_self]
      intro x hx
      obtain ⟨k, _, rfl⟩ := List.mem_map.mp hx
      rfl
    simp only [SigObj.subs, List.filter_append, hnew]
  have hperm : (s.subs 16 ++ new).Perm (({ s with hashed := s.hashed ++ new } : SigObj).subs 16) := by
    rw [hsubs]
    simp only [SigObj.subs, List.filter_append, List.append_assoc]
    exact (List.perm_append_comm).append_left _
  obtain ⟨after, h1, h2⟩ := issuerIds_perm hperm _ (issuerIds_append_ok _ _ _ _ hids (issuerIds_of_map added))
  refine ⟨{ s with hashed := s.hashed ++ new }, added, after, ?_, ?_, h2.symm, ((ho (ids ++ existing)).1).filter _, ?_⟩
  · simp only [SigObj.setIssuers, hex, except_bind_ok]
    rw [issuer_fold fl existing ids hne]
    rfl
  · simp only [SigObj.issuers]
    rw [if_neg h23, if_pos hv]
    exact h1
  · intro k
    simp only [added, List.mem_filter, (ho _).2, List.mem_append]
    by_cases hk : k ∈ existing <;> simp [hk]

example := C52_issuers_only_added Nat.log2 (fun l => l.dedup) (fun l => ⟨List.nodup_dedup l, fun x => List.mem_dedup⟩) exObj (by decide) _ ["0000000000000001".toList, "0123456789ABCDEF".toList] rfl (by decide)

theorem sub_same_cls {fl : FloorLog2} {a b : Sub} (h : Sub.same fl a b = true) : a.cls = b.cls := by
  simp only [Sub.same, Bool.and_eq_true, decide_eq_true_eq] at h
  exact h.1

theorem sub_same_refl {fl : FloorLog2} {a : Sub} {e : Bytes} (h : Sub.toBytes fl a = .ok e) : Sub.same fl a a = true := by
  simp [Sub.same, h]

/-- The subpackets left by removing an issuer. -/
theorem removeIssuer_spec (fl : FloorLog2) (s : SigObj) (k : Str) :
    (∀ x, x ∈ (s.removeIssuer fl k).hashed → x ∈ s.hashed) ∧ (∀ x, x ∈ (s.removeIssuer fl k).unhashed → x ∈ s.unhashed) ∧
    (∀ x ∈ s.hashed, x.type ≠ 16 → x ∈ (s.removeIssuer fl k).hashed) ∧ (∀ x ∈ s.unhashed, x.type ≠ 16 → x ∈ (s.removeIssuer fl k).unhashed) ∧
    (∀ c e, Sub.toBytes fl (.plain c (.issuer k)) = .ok e → Sub.plain c (.issuer k) ∉ (s.removeIssuer fl k).subs 16) := by
  have hcls : ∀ x : Sub, x.type ≠ 16 → ∀ y : Sub, (∃ c, y = .plain c (.issuer k)) → Sub.same fl y x = false := by
    rintro x hx y ⟨c, rfl⟩
    cases hs : Sub.same fl (.plain c (.issuer k)) x with
    | false => rfl
    | true =>
      exfalso
      have h1 : (16 : Nat) = x.cls := sub_same_cls hs
      cases x with
      | embedded c s => cases h1
      | plain c p =>
        cases p with
        | other t => cases h1
        | _ => exact hx h1.symm
  have hkeep : ∀ x : Sub, x.type ≠ 16 → s.issuerHit fl k x = false := by
    intro x hx
    unfold SigObj.issuerHit
    rw [List.any_eq_false]
    intro y hy h
    rw [Bool.and_eq_true] at h
    have : ∃ c, y = .plain c (.issuer k) := by
      revert h
      cases y with
      | embedded c s => intro h; cases h.1
      | plain c p =>
        cases p with
        | issuer k' => intro h; exact ⟨c, by rw [of_decide_eq_true h.1]⟩
        | _ => intro h; cases h.1
    rw [hcls x hx y this] at h
    cases h.2
  refine ⟨fun x hx => (List.mem_filter.mp hx).1, fun x hx => (List.mem_filter.mp hx).1, ?_, ?_, ?_⟩
  · intro x hx ht
    exact List.mem_filter.mpr ⟨hx, by simp only [hkeep x ht, Bool.not_false]⟩
  · intro x hx ht
    exact List.mem_filter.mpr ⟨hx, by simp only [hkeep x ht, Bool.not_false]⟩
  · intro c e he hm
    obtain ⟨hm, _⟩ := mem_subs.mp hm
    have hin : Sub.plain c (.issuer k) ∈ s.subs 16 := by
      refine mem_subs.mpr ⟨?_, rfl⟩
      rcases List.mem_append.mp hm with hm | hm
      · exact List.mem_append_left _ (List.mem_filter.mp hm).1
      · exact List.mem_append_right _ (List.mem_filter.mp hm).1
    have hany : s.issuerHit fl k (.plain c (.issuer k)) = true := by
      unfold SigObj.issuerHit
      rw [List.any_eq_true]
      exact ⟨_, hin, by rw [Bool.and_eq_true]; exact ⟨by simp [Sub.hasIssuer], sub_same_refl he⟩⟩
    rcases List.mem_append.mp hm with hm | hm
    · have := (List.mem_filter.mp hm).2
      simp only [hany] at this
      cases this
    · have := (List.mem_filter.mp hm).2
      simp only [hany] at this
      cases this

/-- C52. Assigning an empty list removes every issuer (their ids being writable), and no other subpacket. -/
theorem C52_issuers_cleared (fl : FloorLog2) (order : List Str → List Str) (ho : ∀ l, (order l).Nodup ∧ ∀ x, x ∈ order l ↔ x ∈ l) (s : SigObj)
    (hv : s.version ≥ 4) (existing : List Str) (hex : s.issuers = .ok existing)
    (hw : ∀ k ∈ existing, ∀ c, ∃ e, Sub.toBytes fl (.plain c (.issuer k)) = .ok e) :
    ∃ s', s.setIssuers fl order [] = .ok s' ∧ s'.issuers = .ok [] ∧ ∀ x ∈ s.hashed ++ s.unhashed, x.type ≠ 16 → x ∈ s'.hashed ++ s'.unhashed := by
  have h23 : ¬(s.version = 2 ∨ s.version = 3) := by omega
  have hids : issuerIds (s.subs 16) = .ok existing := by
    simpa only [SigObj.issuers, if_neg h23, if_pos hv] using hex
  have hform : ∀ (l : List Sub) ks, issuerIds l = .ok ks → ∀ x ∈ l, ∃ c k, x = .plain c (.issuer k) ∧ k ∈ ks := by
    intro l
    induction l with
    | nil => intro ks _ x hx; cases hx
    | cons z l ih =>
      intro ks h x hx
      cases z with
      | embedded c s => cases h
      | plain c p =>
        cases p with
        | issuer k' =>
          obtain ⟨ks', h', h⟩ := except_bind_eq_ok.mp h
          cases h
          rcases List.mem_cons.mp hx with rfl | hx
          · exact ⟨c, k', rfl, List.mem_cons_self⟩
          · obtain ⟨c', k, e, hk⟩ := ih ks' h' x hx
            exact ⟨c', k, e, List.mem_cons_of_mem _ hk⟩
        | _ => cases h
  have hold := hform _ _ hids
  have key : ∀ (l : List Str) (z : SigObj), (∀ k ∈ l, k ∈ existing) → (∀ x ∈ z.subs 16, x ∈ s.subs 16) →
      ∃ z', l.foldl (issuerStep fl existing []) z = z' ∧ z'.version = z.version ∧ (∀ x ∈ z'.subs 16, x ∈ z.subs 16) ∧
        (∀ k ∈ l, ∀ c, Sub.plain c (.issuer k) ∉ z'.subs 16) ∧ (∀ x ∈ z.hashed ++ z.unhashed, x.type ≠ 16 → x ∈ z'.hashed ++ z'.unhashed) := by
    intro l
    induction l with
    | nil => intro z _ _; exact ⟨z, rfl, rfl, fun x hx => hx, fun k hk => (by cases hk), fun x hx _ => hx⟩
    | cons k l ih =>
      intro z hl hz
      have hk := hl k List.mem_cons_self
      obtain ⟨r1, r2, r3, r4, r5⟩ := removeIssuer_spec fl z k
      have hsub : ∀ x ∈ (z.removeIssuer fl k).subs 16, x ∈ z.subs 16 := by
        intro x hx
        obtain ⟨hm, ht⟩ := mem_subs.mp hx
        refine mem_subs.mpr ⟨?_, ht⟩
        rcases List.mem_append.mp hm with hm | hm
        · exact List.mem_append_left _ (r1 x hm)
        · exact List.mem_append_right _ (r2 x hm)
      obtain ⟨z', e1, e2, e3, e4, e5⟩ := ih (z.removeIssuer fl k) (fun j hj => hl j (List.mem_cons_of_mem _ hj)) (fun x hx => hz x (hsub x hx))
      refine ⟨z', ?_, e2, fun x hx => hsub x (e3 x hx), ?_, ?_⟩
      · rw [List.foldl_cons, issuerStep, if_neg (fun h => h.2 rfl), if_pos hk]; exact e1
      · intro j hj c hm
        rcases List.mem_cons.mp hj with rfl | hj
        · obtain ⟨e, he⟩ := hw j hk c
          exact r5 c e he (e3 _ hm)
        · exact e4 j hj c hm
      · intro x hx ht
        refine e5 x ?_ ht
        rcases List.mem_append.mp hx with hx | hx
        · exact List.mem_append_left _ (r3 x hx ht)
        · exact List.mem_append_right _ (r4 x hx ht)
  obtain ⟨z', e1, e2, e3, e4, e5⟩ := key (order ([] ++ existing)) s (fun k hk => by simpa using ((ho _).2 k).mp hk) (fun x hx => hx)
  refine ⟨z', ?_, ?_, e5⟩
  · simp only [SigObj.setIssuers, hex, except_bind_ok]
    rw [e1]; rfl
  · simp only [SigObj.issuers]
    rw [e2, if_neg h23, if_pos hv]
    have hnil : z'.subs 16 = [] := by
      cases hz : z'.subs 16 with
      | nil => rfl
      | cons x l =>
        exfalso
        have hx : x ∈ z'.subs 16 := by rw [hz]; exact List.mem_cons_self
        obtain ⟨c, k, rfl, hk⟩ := hold x (e3 x hx)
        exact e4 k (((ho _).2 k).mpr (by simpa using hk)) c hx
    rw [hnil]; rfl

example := C52_issuers_cleared Nat.log2 (fun l => l.dedup) (fun l => ⟨List.nodup_dedup l, fun x => List.mem_dedup⟩) exObj (by decide) ["0123456789ABCDEF".toList] rfl (fun k hk c => by
  rw [List.mem_singleton] at hk
  subst hk
  cases c
  · exact ⟨[9, 16, 1, 35, 69, 103, 137, 171, 205, 239], by decide +kernel⟩
  · exact ⟨[9, 144, 1, 35, 69, 103, 137, 171, 205, 239], by decide +kernel⟩)

/-! ### A concrete signature -/

/-- The hypotheses of the C52 theorems hold of the example: it is regular, has key flags, a creation time and a list of issuers. -/
example : Regular exObj ∧ HasFlags exObj ∧ exObj.creationTime = .ok 1000000000000000 ∧ exObj.issuers = .ok ["0123456789ABCDEF".toList] :=
  ⟨exObj_regular, exObj_flags, rfl, rfl⟩

/-- A history on the example. -/
example : ∃ s', assignAll exObj [⟨.prefSym, [7]⟩, ⟨.flag .encComms, true⟩, ⟨.prefSym, [9, 8]⟩] = .ok s' ∧ s'.get .prefSym = .ok (some [9, 8]) ∧
    s'.get (.flag .encComms) = .ok (some true) ∧ s'.get (.flag .auth) = .ok (some false) := ⟨_, rfl, rfl, rfl, rfl⟩

end Pgp.Props
