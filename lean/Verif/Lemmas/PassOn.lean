import Verif.Lemmas.SettleKey
import Verif.Props.Message
import Verif.Props.SigMeaning
import Verif.Spec.PassOn
/-
Lemmas for C123: what the readers of message packets give, written and read again.
-/
namespace Pgp
open Spec Props

theorem literal_shape {d : Bytes} {l : Literal} (h : Literal.parse d = .ok l) :
    ∃ t, l.time = .int t ∧ t < 2 ^ 32 ∧
      ((l.dataFormat = 0x75 ∨ l.dataFormat = 0x74) ∧ (∃ s, l.data = .text s) ∨ ¬ (l.dataFormat = 0x75 ∨ l.dataFormat = 0x74) ∧ ∃ b, l.data = .octets b) := by
  unfold Literal.parse at h
  obtain ⟨f, _, h⟩ := except_bind_eq_ok.mp h
  obtain ⟨n, _, h⟩ := except_bind_eq_ok.mp h
  dsimp only at h
  obtain ⟨t, ht, h⟩ := except_bind_eq_ok.mp h
  obtain ⟨b, hb, h⟩ := except_bind_eq_ok.mp h
  cases h
  refine ⟨t, rfl, ?_, ?_⟩
  · obtain ⟨_, rfl⟩ := bytesToInt_ok ht
    refine Nat.lt_of_lt_of_le (beNat_lt _) ?_
    rw [show (2 : Nat) ^ 32 = 256 ^ 4 by norm_num]
    exact Nat.pow_le_pow_right (by omega) (by simp)
  · dsimp only
    unfold litDecode at hb
    split at hb
    · rename_i h1
      cases hb
      exact .inl ⟨.inr h1, _, rfl⟩
    · split at hb
      · rename_i h1
        obtain ⟨s, _, hb⟩ := except_bind_eq_ok.mp hb
        cases hb
        exact .inl ⟨.inl h1, _, rfl⟩
      · rename_i h1 h2
        cases hb
        exact .inr ⟨by rintro (h | h) <;> contradiction, _, rfl⟩

theorem pkesk_shape {d : Bytes} {p : PkEsk} (h : parsePkEsk d = .ok p) : p.version < 256 ∧ p.alg < 256 ∧ ∃ id : Bytes, id.length = 8 ∧ p.keyId = some (hexText id) := by
  unfold parsePkEsk at h
  obtain ⟨v, _, h⟩ := except_bind_eq_ok.mp h
  obtain ⟨k, hk, h⟩ := except_bind_eq_ok.mp h
  obtain ⟨a, ha, h⟩ := except_bind_eq_ok.mp h
  cases h
  obtain ⟨s, hs⟩ := idx_ok ha
  have hlen : 10 ≤ d.length := by
    have := congrArg List.length hs
    simp only [List.length_drop, List.length_cons] at this
    omega
  have hd : d.drop 1 = (d.drop 1).take 8 ++ (d.drop 1).drop 8 := (List.take_append_drop _ _).symm
  have h8 : ((d.drop 1).take 8).length = 8 := by simp only [List.length_take, List.length_drop]; omega
  have := bytearrayToHex_of_drop (e := 16) hd (by rw [h8])
  rw [hk] at this
  cases this
  exact ⟨v.toNat_lt, a.toNat_lt, _, h8, by rw [hexOf_eq_hexText]⟩

theorem skesk_shape {d : Bytes} {p : SkEsk} (h : parseSkEsk d = .ok p) (hw : WholeSpecifier p.s2k) : KeyFits (.sym p.sym p.s2k p.esk) := by
  unfold parseSkEsk at h
  obtain ⟨v, _, h⟩ := except_bind_eq_ok.mp h
  obtain ⟨a, ha, h⟩ := except_bind_eq_ok.mp h
  obtain ⟨⟨s, off⟩, hs, h⟩ := except_bind_eq_ok.mp h
  dsimp only at h
  split at h
  · cases h
  · rename_i n hn
    cases h
    dsimp only at hw ⊢
    refine ⟨a.toNat_lt, ?_, ?_, n, _, ?_, rfl, ?_⟩
    · unfold parseS2k at hs
      obtain ⟨t, _, hs⟩ := except_bind_eq_ok.mp hs
      dsimp only at hs
      split at hs
      · obtain ⟨x, _, hs⟩ := except_bind_eq_ok.mp hs
        cases hs; exact x.toNat_lt
      · split at hs
        · obtain ⟨x, _, hs⟩ := except_bind_eq_ok.mp hs
          cases hs; exact ⟨x.toNat_lt, hw⟩
        · split at hs
          · obtain ⟨x, _, hs⟩ := except_bind_eq_ok.mp hs
            obtain ⟨c, _, hs⟩ := except_bind_eq_ok.mp hs
            cases hs; exact ⟨x.toNat_lt, hw, c.toNat, c.toNat_lt, s2kCountToInt_eq _⟩
          · exfalso
            split at hs
            · obtain ⟨x, _, hs⟩ := except_bind_eq_ok.mp hs
              split at hs
              · cases hs
              · obtain ⟨m, _, hs⟩ := except_bind_eq_ok.mp hs
                split at hs
                · cases hs; exact hw
                · split at hs
                  · obtain ⟨n, _, hs⟩ := except_bind_eq_ok.mp hs
                    obtain ⟨z, _, hs⟩ := except_bind_eq_ok.mp hs
                    cases hs; exact hw
                  · cases hs
            · cases hs
    · unfold parseS2k at hs
      obtain ⟨t, _, hs⟩ := except_bind_eq_ok.mp hs
      dsimp only at hs
      split at hs
      · obtain ⟨x, _, hs⟩ := except_bind_eq_ok.mp hs
        cases hs; rfl
      · split at hs
        · obtain ⟨x, _, hs⟩ := except_bind_eq_ok.mp hs
          cases hs; rfl
        · split at hs
          · obtain ⟨x, _, hs⟩ := except_bind_eq_ok.mp hs
            obtain ⟨c, _, hs⟩ := except_bind_eq_ok.mp hs
            cases hs; rfl
          · exfalso
            split at hs
            · obtain ⟨x, _, hs⟩ := except_bind_eq_ok.mp hs
              split at hs
              · cases hs
              · obtain ⟨m, _, hs⟩ := except_bind_eq_ok.mp hs
                split at hs
                · cases hs; exact hw
                · split at hs
                  · obtain ⟨n, _, hs⟩ := except_bind_eq_ok.mp hs
                    obtain ⟨z, _, hs⟩ := except_bind_eq_ok.mp hs
                    cases hs; exact hw
                  · cases hs
            · cases hs
    · rw [← keyLengths_eq]; exact hn
    · simp only [slice, List.length_take, List.length_drop]; omega

/-! ### Signatures -/

/-- The subpacket and its octets. -/
def RawOf (fl : Nat → Nat) : Sub → RawSub → Prop
  | .plain c v, r => v.content = .ok r.content ∧ r.ty = v.type ∧ r.critical = c
  | .embedded c _, r => r.ty = 32 ∧ r.critical = c

theorem subs_raw_all {fl : Nat → Nat} : ∀ {l : List Sub} {e : Bytes}, (∀ s ∈ l, SubRead s) → subsBytes fl l = .ok e →
    ∃ rs, RawSubs rs e ∧ List.Forall₂ (RawOf fl) l rs := by
  intro l
  induction l with
  | nil => intro e _ he; rw [subsBytes] at he; cases he; exact ⟨[], .nil, .nil⟩
  | cons s l ih =>
    intro e hr he
    rw [subsBytes] at he
    obtain ⟨a, h1, he⟩ := except_bind_eq_ok.mp he
    obtain ⟨b, h2, he⟩ := except_bind_eq_ok.mp he
    cases he
    obtain ⟨rs, i1, i2⟩ := ih (fun s hs => hr s (by simp [hs])) h2
    have hs := hr s (by simp)
    cases s with
    | plain c v =>
      obtain ⟨ty, d, h3, _, h4⟩ := hs
      rw [Sub.toBytes] at h1
      obtain ⟨x, h5, h1⟩ := except_bind_eq_ok.mp h1
      have h6 : v.type < 128 := by rw [parsePlain_type h4]; exact h3
      obtain ⟨l', h7, rfl⟩ := subBytes_ok h6 h1
      exact ⟨⟨v.type, c, x⟩ :: rs, .cons (r := ⟨v.type, c, x⟩) h7 h6 i1, .cons ⟨h5, rfl, rfl⟩ i2⟩
    | embedded c sig =>
      rw [Sub.toBytes] at h1
      obtain ⟨x, h5, h1⟩ := except_bind_eq_ok.mp h1
      obtain ⟨l', h7, rfl⟩ := subBytes_ok (by decide) h1
      exact ⟨⟨32, c, x⟩ :: rs, .cons (r := ⟨32, c, x⟩) h7 (show 32 < 128 by decide) i1, .cons ⟨rfl, rfl⟩ i2⟩

/-- The issuer a subpacket names. -/
def issuerIn : Sub → Option Str
  | .plain _ (.issuer k) => some k
  | _ => none

theorem issuersOf_eq (l : List Sub) : issuersOf l = l.filterMap issuerIn := by
  unfold issuersOf
  congr 1

theorem issuerIn_other {s : Sub} (h : (kindOf s).1 ≠ 16) : issuerIn s = none := by
  cases s with
  | plain c v => cases v <;> first | rfl | exact absurd rfl h
  | embedded => rfl

theorem issuer_again {fl : Nat → Nat} {s s' : Sub} {r : RawSub} (hs : SubRead s) (hr : RawOf fl s r) (h : readRaw r = .ok s') : issuerIn s' = issuerIn s := by
  have hk := readRaw_kind h
  cases s with
  | embedded c sig =>
    rw [issuerIn_other (s := .embedded c sig) (by show (32 : Nat) ≠ 16; decide), issuerIn_other]
    rw [hk, hr.1]; exact (by decide : (32 : Nat) ≠ 16)
  | plain c v =>
    obtain ⟨ty, d, h1, h2, h3⟩ := hs
    obtain ⟨h4, h5, h6⟩ := hr
    have h7 := parsePlain_type h3
    by_cases h16 : ty = 16
    · subst h16
      have h3' : readIssuer d = .ok v := h3
      unfold readIssuer at h3'
      obtain ⟨_, hl, h3'⟩ := except_bind_eq_ok.mp h3'
      obtain ⟨k, hkk, h3'⟩ := except_bind_eq_ok.mp h3'
      cases h3'
      have hl8 : d.length = 8 := by
        unfold pyAssert at hl
        split at hl
        · rename_i h; simpa using h
        · cases hl
      have hx := bytearrayToHex_of_drop (data := d) (b := d) (s := []) (off := 0) (e := 16) (by simp) (by omega)
      rw [hkk] at hx
      cases hx
      have hc : hexToBytes (hexOf d) (some 8) = .ok d := by
        unfold hexToBytes
        rw [hexPairs_hexOf, except_bind_ok]
        simp only [lastN, except_pure]
        rw [if_neg (by decide), List.length_append, List.length_replicate, hl8]
        simp
      have h4' : hexToBytes (hexOf d) (some 8) = .ok r.content := h4
      rw [hc] at h4'
      have h4'' : d = r.content := by injection h4'
      obtain ⟨rt, rc, rcon⟩ := r
      dsimp only at h5 h6 h4''
      subst h4'' h6
      have h5' : rt = 16 := h5
      subst h5'
      unfold readRaw readSub at h
      have h8 : parsePlain 16 d = .ok (.issuer (hexOf d)) := h3
      dsimp only at h
      rw [if_neg (by decide), h8] at h
      cases h
      rfl
    · rw [issuerIn_other (s := .plain c v) (by show v.type ≠ 16; rw [h7]; exact h16), issuerIn_other]
      rw [hk, h5, h7]; exact h16

theorem issuers_again {fl : Nat → Nat} {l : List Sub} {rs : List RawSub} (h : List.Forall₂ (RawOf fl) l rs) : ∀ {l' : List Sub}, (∀ s ∈ l, SubRead s) →
    List.mapM readRaw rs = .ok l' → l'.filterMap issuerIn = l.filterMap issuerIn := by
  induction h with
  | nil => intro l' _ h; cases h; rfl
  | @cons s r l rs h1 _ ih =>
    intro l' hr h
    rw [List.mapM_cons] at h
    obtain ⟨x, hx, h⟩ := except_bind_eq_ok.mp h
    obtain ⟨y, hy, h⟩ := except_bind_eq_ok.mp h
    cases h
    rw [List.filterMap_cons, List.filterMap_cons, issuer_again (hr s (by simp)) h1 hx, ih (fun s hs => hr s (by simp [hs])) hy]

/-- What stays the same when a signature that can be stored is written and read again. -/
def SameSig (fl : Nat → Nat) (s s' : Sig) : Prop :=
  ∃ t p h hs us left vs hs' us', s = .v4 4 t p h hs us left vs ∧ s' = .v4 4 t p h hs' us' left vs ∧ issuersOf (hs' ++ us') = issuersOf (hs ++ us) ∧
    Sig.content fl s' = Sig.content fl s

theorem sig_again {fl : Nat → Nat} {good : Nat → Prop} (hg : ∀ i, good i → LogRoom fl i ∧ (0 < i → fl i = Nat.log2 i)) {s : Sig} (hs : SigStorable fl good s)
    {d e : Bytes} (hread : parseSig d = .ok s) (he : Sig.content fl s = .ok e) : ∃ s', SigOk fl s' ∧ parseSig e = .ok s' ∧ SameSig fl s s' := by
  have hw := sig_settles hg hs d hread e he
  obtain ⟨s', o1, o2⟩ := sigWire_ok hg hw
  have hp : parseSig e = .ok s' := by
    obtain ⟨e', h3, h4⟩ := sigOk_write o1
    rw [o2] at h3
    cases h3
    exact h4
  refine ⟨s', o1, hp, ?_⟩
  cases hs with
  | @v4 version t p h hashed unhashed hash2 values hh hu lh lu h2 hv =>
  obtain ⟨rfl, ht, hpp, hh', r1, r2, vs, rfl⟩ := sig_read hread
  have he' := he
  rw [Sig.content, byteOf_lt (show 4 < 256 by decide), byteOf_lt ht, byteOf_lt hpp, byteOf_lt hh',
    sigValues_mpis fun i hi => (hg i (hv i (List.mem_map_of_mem hi))).2] at he
  simp only [except_bind_ok] at he
  obtain ⟨hd, h3, he⟩ := except_bind_eq_ok.mp he
  obtain ⟨ud, h4, he⟩ := except_bind_eq_ok.mp he
  have he0 := Except.ok.inj he
  obtain ⟨rs, i1, i2⟩ := subs_raw_all r1 h3
  obtain ⟨rs', j1, j2⟩ := subs_raw_all r2 h4
  have hsmall : ∀ i ∈ vs, i < 2 ^ 65535 := by
    intro i hi
    obtain ⟨g1, g2⟩ := hg i (hv i (List.mem_map_of_mem hi))
    rcases g1 with rfl | ⟨g1, _⟩
    · exact Nat.two_pow_pos _
    · by_cases h0 : i = 0
      · subst h0; exact Nat.two_pow_pos _
      · rw [g2 (by omega)] at g1
        exact (Nat.log2_lt h0).mp (by omega)
  have hraw : SigRaw (UInt8.ofNat t) (UInt8.ofNat p) (UInt8.ofNat h) rs rs' hash2 vs e :=
    ⟨hd, ud, vs.map mpi, i1, j1, lh hd h3, lu ud h4, h2, by
      rw [List.forall₂_map_right_iff]
      exact List.forall₂_same.mpr fun i hi => looseMpi_mpi (hsmall i hi), by
      rw [← he0, intTo2byte_eq, intTo2byte_eq]; rfl⟩
  have hp' := hp
  rw [parseSig_raw hraw] at hp'
  obtain ⟨l1, m1, hp'⟩ := except_bind_eq_ok.mp hp'
  obtain ⟨l2, m2, hp'⟩ := except_bind_eq_ok.mp hp'
  cases hp'
  rw [toNat_ofNat_lt ht, toNat_ofNat_lt hpp, toNat_ofNat_lt hh'] at o2 ⊢
  refine ⟨t, p, h, hashed, unhashed, hash2, vs.map some, l1, l2, rfl, rfl, ?_, by rw [o2, he']⟩
  rw [issuersOf_eq, issuersOf_eq, List.filterMap_append, List.filterMap_append, issuers_again i2 r1 m1, issuers_again j2 r2 m2]

end Pgp
