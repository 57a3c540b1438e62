import Verif.Model.KeyIds
import Verif.Spec.KeyIds
import Verif.Props.Hex
import Verif.Props.PublicKey
import Verif.Props.PacketWire
import Mathlib.Data.Nat.Log
import Mathlib.Data.List.Induction
import Mathlib.Tactic.Ring
/-
Property theorems C93: identifiers of key objects.
-/
namespace Pgp.Props
open Spec

/-! ### Sizes -/

theorem logUp_digits {n c : Nat} (h : LogUp n c) (hn : ∀ k, n ≠ 2 ^ k) (h0 : n ≠ 0) : BinaryDigits n c := by
  have hlt : n < 2 ^ c := Nat.lt_of_le_of_ne h.1 (hn c)
  refine ⟨?_, hlt⟩
  cases c with
  | zero => simp at hlt; omega
  | succ c =>
    by_contra hc
    have := h.2 c (by rw [Nat.pow_succ] at hc; omega)
    omega

/-- C93 (part that holds): if the logarithm is right, the size of a key is the number of binary digits of n (RSA) or p - unless that is a power of two. -/
theorem C93_bit_length_partial (ceilLog : Nat → Nat) (v c a : Nat) (days : Option Nat) (m : KeyMaterial) (ha : m.fits a) (h0 : m.main ≠ 0)
    (hl : LogUp m.main (ceilLog m.main)) (hp : ∀ k, m.main ≠ 2 ^ k) :
    ∃ b, (mkPubKey v c a days m).bitLength ceilLog = .ok b ∧ BinaryDigits m.main b := by
  refine ⟨ceilLog m.main, ?_, logUp_digits hl hp h0⟩
  obtain ⟨n, hn⟩ : ∃ n, m.main = n + 1 := ⟨m.main - 1, by omega⟩
  cases m with
  | rsa n e => simp only [KeyMaterial.main] at hn; subst hn; rcases ha with rfl | rfl | rfl <;> rfl
  | elgamal p g y => simp only [KeyMaterial.main] at hn; subst hn; rcases ha with rfl | rfl <;> rfl
  | dsa p q g y => simp only [KeyMaterial.main] at hn; subst hn; obtain rfl := ha; rfl

/-- C93 fails: the size given for a power of two is one short. -/
theorem C93_bit_length_refuted (ceilLog : Nat → Nat) (v c a k : Nat) (days : Option Nat) (m : KeyMaterial) (ha : m.fits a) (hm : m.main = 2 ^ k)
    (hl : LogUp m.main (ceilLog m.main)) : (mkPubKey v c a days m).bitLength ceilLog = .ok k ∧ BinaryDigits m.main (k + 1) := by
  have hk : ceilLog m.main = k := by
    apply Nat.le_antisymm
    · exact hl.2 k (by omega)
    · have := hl.1
      rw [hm] at this ⊢
      exact (Nat.pow_le_pow_iff_right (by omega)).mp this
  refine ⟨?_, by rw [hm, BinaryDigits, Nat.pow_succ]; constructor <;> have := Nat.pow_pos (n := k) (show 0 < 2 by omega) <;> omega⟩
  have hpos := Nat.pow_pos (n := k) (show 0 < 2 by omega)
  obtain ⟨n, hn⟩ : ∃ n, m.main = n + 1 := ⟨m.main - 1, by omega⟩
  rw [← hk]
  clear hpos hk hm
  cases m with
  | rsa n e => simp only [KeyMaterial.main] at hn ⊢; subst hn; rcases ha with rfl | rfl | rfl <;> rfl
  | elgamal p g y => simp only [KeyMaterial.main] at hn ⊢; subst hn; rcases ha with rfl | rfl <;> rfl
  | dsa p q g y => simp only [KeyMaterial.main] at hn ⊢; subst hn; obtain rfl := ha; rfl

theorem clog_logUp (n : Nat) : LogUp n (Nat.clog 2 n) := ⟨Nat.le_pow_clog (by omega) n, fun _ h => Nat.clog_le_of_le_pow h⟩

example := C93_bit_length_partial (Nat.clog 2) 4 1000 1 none (.rsa 3233 17) (.inl rfl) (by decide) (clog_logUp _) (by
  intro k h
  have h : 3233 = 2 ^ k := h
  by_cases hk : k < 12
  · have : 2 ^ k ≤ 2 ^ 11 := Nat.pow_le_pow_right (by omega) (by omega)
    omega
  · have : 2 ^ 12 ≤ 2 ^ k := Nat.pow_le_pow_right (by omega) (by omega)
    omega)
example := C93_bit_length_refuted (Nat.clog 2) 4 1000 16 10 none (.elgamal 1024 3 5) (.inl rfl) rfl (clog_logUp _)

/-! ### Key ids -/

theorem hexNumber_append (a b : List Char) : hexNumber (a ++ b) = hexNumber a * 16 ^ b.length + hexNumber b := by
  have key : ∀ (b : List Char) (x : Nat), List.foldl (fun a c => a * 16 + hexAlphabet.idxOf c) x b = x * 16 ^ b.length + hexNumber b := by
    intro b
    induction b with
    | nil => intro x; simp [hexNumber]
    | cons c b ih =>
      intro x
      unfold hexNumber
      rw [List.foldl_cons, List.foldl_cons, ih, ih, List.length_cons, Nat.pow_succ]
      ring
  unfold hexNumber
  rw [List.foldl_append, key]
  rfl

theorem hexNumber_lt {b : List Char} (h : UpperHex b) : hexNumber b < 16 ^ b.length := by
  induction b using List.reverseRecOn with
  | nil => simp [hexNumber]
  | append_singleton l c ih =>
    have h1 := ih (fun x hx => h x (by simp [hx]))
    have h2 : hexAlphabet.idxOf c < hexAlphabet.length := List.idxOf_lt_length_iff.mpr (h c (by simp))
    have h3 : hexAlphabet.length = 16 := by decide
    rw [hexNumber_append]
    simp only [List.length_append, List.length_cons, List.length_nil, Nat.zero_add, Nat.pow_one, Nat.pow_succ]
    have : hexNumber [c] = hexAlphabet.idxOf c := by simp [hexNumber]
    omega

/-- Sixteen digits of any number. -/
theorem intToHex_low (n : Nat) : UpperHex (intToHex n (some 16)) ∧ (intToHex n (some 16)).length = 16 ∧ hexNumber (intToHex n (some 16)) = n % 2 ^ 64 := by
  by_cases hn : n < 16 ^ 16
  · obtain ⟨h1, h2, h3⟩ := C44_int_to_hex_width n 16 (by omega) hn
    refine ⟨h1, h2, ?_⟩
    rw [h3, Nat.mod_eq_of_lt]
    exact hn
  · obtain ⟨d1, d2, d3⟩ := hexDigitsOf_spec n
    have hlen : 16 ≤ (hexDigitsOf n).length := by
      have := hexNumber_lt d1
      rw [d2] at this
      by_contra hc
      have : 16 ^ (hexDigitsOf n).length ≤ 16 ^ 16 := Nat.pow_le_pow_right (by omega) (by omega)
      omega
    have e : intToHex n (some 16) = (hexDigitsOf n).drop ((hexDigitsOf n).length - 16) := by
      simp only [intToHex, lastN, Nat.sub_eq_zero_of_le hlen]; rfl
    have hl : ((hexDigitsOf n).drop ((hexDigitsOf n).length - 16)).length = 16 := by simp; omega
    have hu : UpperHex ((hexDigitsOf n).drop ((hexDigitsOf n).length - 16)) := fun c hc => d1 c (List.mem_of_mem_drop hc)
    rw [e]
    refine ⟨hu, hl, ?_⟩
    have := hexNumber_append ((hexDigitsOf n).take ((hexDigitsOf n).length - 16)) ((hexDigitsOf n).drop ((hexDigitsOf n).length - 16))
    rw [List.take_append_drop, d2, hl] at this
    have hlt := hexNumber_lt hu
    rw [hl] at hlt
    conv => rhs; rw [this]
    rw [show (2 : Nat) ^ 64 = 16 ^ 16 by norm_num, Nat.add_comm, Nat.add_mul_mod_self_right, Nat.mod_eq_of_lt hlt]

/-- C93: the key id of a key of version 2 or 3 is the low 64 bits of n (RSA) or p, in sixteen hexadecimal digits. -/
theorem C93_old_key_id (fl : Nat → Nat) (H : Digest) (v c a : Nat) (days : Option Nat) (m : KeyMaterial) (ha : m.fits a) (hv : v < 4) :
    ∃ id, (mkPubKey v c a days m).objectKeyId fl H = .ok id ∧ UpperHex id ∧ id.length = 16 ∧ hexNumber id = m.main % 2 ^ 64 := by
  refine ⟨intToHex m.main (some 16), ?_, intToHex_low m.main⟩
  unfold PubKey.objectKeyId
  cases m with
  | rsa n e => rw [if_pos (show (mkPubKey v c a days (.rsa n e)).version < 4 from hv)]; rcases ha with rfl | rfl | rfl <;> rfl
  | elgamal p g y => rw [if_pos (show (mkPubKey v c a days (.elgamal p g y)).version < 4 from hv)]; rcases ha with rfl | rfl <;> rfl
  | dsa p q g y => rw [if_pos (show (mkPubKey v c a days (.dsa p q g y)).version < 4 from hv)]; obtain rfl := ha; rfl

example (H : Digest) := C93_old_key_id Nat.log2 H 3 1000 1 (some 30) (.rsa (2 ^ 70 + 0xabcdef) 17) (.inl rfl) (by decide)

/-- C93: the key id of a newer key is the last sixteen digits of its fingerprint (C23). -/
theorem C93_key_id (fl : Nat → Nat) (H : Digest) (hH : ∀ d, (H 2 d).length = 20) (k : PubKey) (hv : 4 ≤ k.version) (c : Bytes) (hc : k.publicContent fl = .ok c) :
    k.objectKeyId fl H = .ok (hexText ((H 2 ([0x99] ++ beBytes 2 c.length ++ c)).drop 12)) := by
  rw [← hexOf_eq_hexText, ← (C23_fingerprint_definition fl H hH k hv c hc).2]
  rw [PubKey.objectKeyId, if_neg (by omega)]
  rfl

example (H : Digest) (hH : ∀ d, (H 2 d).length = 20) := C93_key_id Nat.log2 H hH (mkPubKey 4 1000 1 none (.rsa 3233 17)) (by decide) _
  (C87_public_key_written Nat.log2 4 1 [0, 0, 3, 232] [] none (.rsa 3233 17) rfl (.inr ⟨by decide, rfl, rfl⟩) (.inl rfl) (fun _ _ _ => rfl))

/-! ### Key grips -/

theorem decimal_octets (n : Nat) : (Nat.toDigits 10 n).map (fun c => UInt8.ofNat c.toNat) = decimalOctets n := by
  have tab : ∀ d : Fin 10, UInt8.ofNat (Nat.digitChar d.val).toNat = UInt8.ofNat (48 + d.val) := by decide +kernel
  induction n using Nat.strongRecOn with
  | ind n ih =>
    rw [decimalOctets]
    by_cases h : n < 10
    · rw [if_pos h, Nat.toDigits_of_lt_base h, ← tab ⟨n, h⟩]; rfl
    · rw [if_neg h, Nat.toDigits_of_base_le (by omega) (by omega), List.map_append, ih _ (by omega), ← tab ⟨n % 10, by omega⟩]; rfl

/-- The number written by decimal octets. -/
def decimalValue (b : Bytes) : Nat := b.foldl (fun a x => a * 10 + (x.toNat - 48)) 0

theorem decimal_value (n : Nat) : decimalValue (decimalOctets n) = n ∧ 41 ∉ decimalOctets n := by
  have tab : ∀ d : Fin 10, (UInt8.ofNat (48 + d.val)).toNat - 48 = d.val ∧ 41 ≠ UInt8.ofNat (48 + d.val) := by decide +kernel
  induction n using Nat.strongRecOn with
  | ind n ih =>
    rw [decimalOctets]
    by_cases h : n < 10
    · have t := tab ⟨n, h⟩
      simp only at t
      rw [if_pos h]
      refine ⟨?_, by simpa using t.2⟩
      simp only [decimalValue, List.foldl_cons, List.foldl_nil]
      rw [t.1]; omega
    · have t := tab ⟨n % 10, by omega⟩
      simp only at t
      obtain ⟨i1, i2⟩ := ih (n / 10) (by omega)
      rw [if_neg h]
      refine ⟨?_, by simp only [List.mem_append, List.mem_singleton, not_or]; exact ⟨i2, t.2⟩⟩
      unfold decimalValue at i1 ⊢
      rw [List.foldl_append, i1, List.foldl_cons, List.foldl_nil, t.1]; omega

/-- A number ended by a closing parenthesis can be read off. -/
theorem decimal_split {a b : Nat} {s t : Bytes} (h : decimalOctets a ++ 41 :: s = decimalOctets b ++ 41 :: t) : a = b ∧ s = t := by
  have h1 : ∀ (x y : Bytes), 41 ∉ x → 41 ∉ y → x ++ 41 :: s = y ++ 41 :: t → x = y ∧ s = t := by
    intro x
    induction x with
    | nil =>
      intro y _ hy h
      cases y with
      | nil => exact ⟨rfl, by simpa using h⟩
      | cons u y => simp only [List.nil_append, List.cons_append, List.cons.injEq] at h; exact absurd (h.1 ▸ List.mem_cons_self) hy
    | cons u x ih =>
      intro y hx hy h
      cases y with
      | nil => simp only [List.nil_append, List.cons_append, List.cons.injEq] at h; exact absurd (h.1 ▸ List.mem_cons_self) hx
      | cons w y =>
        simp only [List.cons_append, List.cons.injEq] at h
        obtain ⟨e1, e2⟩ := ih y (fun m => hx (List.mem_cons_of_mem _ m)) (fun m => hy (List.mem_cons_of_mem _ m)) h.2
        exact ⟨by rw [h.1, e1], e2⟩
  obtain ⟨e1, e2⟩ := h1 _ _ (decimal_value a).2 (decimal_value b).2 h
  exact ⟨by rw [← (decimal_value a).1, e1, (decimal_value b).1], e2⟩

theorem octets_rsa : asciiOctets "(public-key(rsa(n" = [40, 112, 117, 98, 108, 105, 99, 45, 107, 101, 121, 40, 114, 115, 97, 40, 110] := by decide +kernel
theorem octets_dsa : asciiOctets "(public-key(dsa(p" = [40, 112, 117, 98, 108, 105, 99, 45, 107, 101, 121, 40, 100, 115, 97, 40, 112] := by decide +kernel
theorem octets_elg : asciiOctets "(public-key(elg(p" = [40, 112, 117, 98, 108, 105, 99, 45, 107, 101, 121, 40, 101, 108, 103, 40, 112] := by decide +kernel
theorem octets_e : asciiOctets ")(e" = [41, 40, 101] := by decide +kernel
theorem octets_q : asciiOctets ")(q" = [41, 40, 113] := by decide +kernel
theorem octets_g : asciiOctets ")(g" = [41, 40, 103] := by decide +kernel
theorem octets_y : asciiOctets ")(y" = [41, 40, 121] := by decide +kernel
theorem octets_end : asciiOctets ")))" = [41, 41, 41] := by decide +kernel

/-- C93: different key material has different S-expressions. -/
theorem C93_expression_injective (m m' : KeyMaterial) (h : m.expression = m'.expression) : m = m' := by
  cases m <;> cases m' <;> simp only [KeyMaterial.expression, octets_rsa, octets_dsa, octets_elg, octets_e, octets_q, octets_g, octets_y, octets_end,
    List.append_assoc, List.cons_append, List.nil_append, List.cons.injEq, true_and] at h
  case rsa.rsa =>
    have h1 := decimal_split h
    simp only [List.cons.injEq, true_and] at h1
    rw [h1.1, (decimal_split h1.2).1]
  case dsa.dsa =>
    have h1 := decimal_split h
    simp only [List.cons.injEq, true_and] at h1
    have h2 := decimal_split h1.2
    simp only [List.cons.injEq, true_and] at h2
    have h3 := decimal_split h2.2
    simp only [List.cons.injEq, true_and] at h3
    rw [h1.1, h2.1, h3.1, (decimal_split h3.2).1]
  case elgamal.elgamal =>
    have h1 := decimal_split h
    simp only [List.cons.injEq, true_and] at h1
    have h2 := decimal_split h1.2
    simp only [List.cons.injEq, true_and] at h2
    rw [h1.1, h2.1, (decimal_split h2.2).1]
  all_goals exact absurd h (by simp)

example := C93_expression_injective (.dsa 23 11 4 8) (.dsa 23 11 4 8) rfl

/-- C93: the key grip is the SHA-1 hash of the S-expression of the key, in hexadecimal digits. -/
theorem C93_keygrip (H : Digest) (v c a : Nat) (days : Option Nat) (m : KeyMaterial) (ha : m.fits a) :
    (mkPubKey v c a days m).keygrip H = .ok (hexText (H 2 m.expression)) := by
  rw [← hexOf_eq_hexText]
  have key : ∀ s, (mkPubKey v c a days m).keyExpression = .ok s → s.map (fun c => UInt8.ofNat c.toNat) = m.expression →
      (mkPubKey v c a days m).keygrip H = .ok (hexOf (H 2 m.expression)) := by
    intro s h1 h2
    rw [PubKey.keygrip, h1, ← h2]; rfl
  cases m with
  | rsa n e =>
    refine key _ (by rcases ha with rfl | rfl | rfl <;> rfl) ?_
    simp only [mkPubKey, List.map_append, decimalOrNone, decimal_octets, KeyMaterial.expression, asciiOctets]
  | elgamal p g y =>
    refine key _ (by rcases ha with rfl | rfl <;> rfl) ?_
    simp only [mkPubKey, List.map_append, decimalOrNone, decimal_octets, KeyMaterial.expression, asciiOctets]
  | dsa p q g y =>
    refine key _ (by obtain rfl := ha; rfl) ?_
    simp only [mkPubKey, List.map_append, decimalOrNone, decimal_octets, KeyMaterial.expression, asciiOctets]

example (H : Digest) := C93_keygrip H 4 1000 17 none (.dsa 23 11 4 9) rfl

/-- C93: if SHA-1 does not collide on their S-expressions, keys with the same key grip have the same key material, whatever their versions, times and algorithm
numbers. -/
theorem C93_keygrip_identifies (H : Digest) (v c a v' c' a' : Nat) (days days' : Option Nat) (m m' : KeyMaterial) (ha : m.fits a) (ha' : m'.fits a')
    (hcoll : H 2 m.expression = H 2 m'.expression → m.expression = m'.expression) :
    (mkPubKey v c a days m).keygrip H = (mkPubKey v' c' a' days' m').keygrip H ↔ m = m' := by
  rw [C93_keygrip H v c a days m ha, C93_keygrip H v' c' a' days' m' ha']
  constructor
  · intro h
    exact C93_expression_injective _ _ (hcoll (hexText_inj (Except.ok.inj h)))
  · rintro rfl; rfl

example (H : Digest) (h : Function.Injective (H 2)) := C93_keygrip_identifies H 4 1000 1 3 2000 2 none (some 1) (.rsa 3233 17) (.rsa 3233 17) (.inl rfl) (.inr (.inl rfl))
  (fun e => h e)

/-- C93 fails for algorithms the library does not know: neither size nor key grip nor (version 2 and 3) key id. -/
theorem C93_unknown_algorithm_raises (fl ceilLog : Nat → Nat) (H : Digest) (k : PubKey) (ha : k.algorithm ∉ [1, 2, 3, 16, 17, 20]) :
    k.bitLength ceilLog = .error .unboundLocal ∧ k.keygrip H = .error .valueError ∧ (k.version < 4 → k.objectKeyId fl H = .error .typeError) := by
  simp only [List.mem_cons, List.not_mem_nil, or_false, not_or] at ha
  obtain ⟨h1, h2, h3, h4, h5, h6⟩ := ha
  refine ⟨by simp [PubKey.bitLength, *], by simp [PubKey.keygrip, PubKey.keyExpression, *], fun hv => by simp [PubKey.objectKeyId, *]⟩

example (H : Digest) := C93_unknown_algorithm_raises Nat.log2 (Nat.clog 2) H (mkPubKey 3 1000 22 none (.rsa 3 5)) (by decide)

end Pgp.Props
