import Verif.Model.S2k
import Verif.Spec.S2k
import Verif.Lemmas.Lengths
/-
Property theorems C19-C21: string-to-key.
-/
namespace Pgp
open Spec

/-- The package's tables are those of the specifications, except for Twofish keys. -/
theorem hashLengths_eq (a : Nat) : hashLengths a = digestOctets a := by
  unfold hashLengths
  split <;> first | rfl | skip
  rename_i h1 h2 h3 h4 h5 h6 h7
  simp only [imp_false] at h1 h2 h3 h4 h5 h6 h7
  have e : ∀ n : Nat, ¬a = n → (a == n) = false := fun n h => by simpa using h
  simp [digestOctets, List.lookup, e _ h1, e _ h2, e _ h3, e _ h4, e _ h5, e _ h6, e _ h7]

theorem keyLengths_eq (a : Nat) : keyLengths a = tableKeyOctets a := by
  unfold keyLengths
  split <;> first | rfl | skip
  rename_i h1 h2 h3 h4 h5 h6 h7 h8 h9 h10 h11 h12
  simp only [imp_false] at h1 h2 h3 h4 h5 h6 h7 h8 h9 h10 h11 h12
  have e : ∀ n : Nat, ¬a = n → (a == n) = false := fun n h => by simpa using h
  simp [tableKeyOctets, cipherKeyOctets, List.lookup, h9, e _ h1, e _ h2, e _ h3, e _ h4, e _ h5, e _ h6, e _ h7, e _ h8, e _ h9, e _ h10, e _ h11, e _ h12]

theorem blockLengths_eq (a : Nat) : blockLengths a = blockOctets a := by
  unfold blockLengths
  split <;> first | rfl | skip
  rename_i h1 h2 h3 h4 h5 h6 h7 h8 h9 h10 h11 h12
  simp only [imp_false] at h1 h2 h3 h4 h5 h6 h7 h8 h9 h10 h11 h12
  have e : ∀ n : Nat, ¬a = n → (a == n) = false := fun n h => by simpa using h
  simp [blockOctets, List.lookup, e _ h1, e _ h2, e _ h3, e _ h4, e _ h5, e _ h6, e _ h7, e _ h8, e _ h9, e _ h10, e _ h11, e _ h12]

theorem keyLengths_of {a n : Nat} (h : cipherKeyOctets a = some n) (h10 : a ≠ 10) : keyLengths a = some n := by
  rw [keyLengths_eq, tableKeyOctets, if_neg h10, h]

/-- The floating-point logarithm is right on the range of iteration counts. -/
def LogOnCounts (fl : Nat → Nat) : Prop := ∀ i, 1024 ≤ i → i ≤ 65011712 → fl i = Nat.log2 i

theorem s2kCountToInt_eq (c : Nat) : s2kCountToInt c = countValue c := by
  unfold s2kCountToInt countValue
  rw [and15, Nat.shiftLeft_eq, Nat.shiftRight_eq_div_pow]

theorem countValue_bounds {c : Nat} (h : c < 256) : 1024 ≤ countValue c ∧ countValue c ≤ 65011712 := by
  have : ∀ c : Fin 256, 1024 ≤ countValue c.val ∧ countValue c.val ≤ 65011712 := by decide +kernel
  exact this ⟨c, h⟩

theorem intToS2kCount_value {fl : Nat → Nat} (hl : LogOnCounts fl) {c : Nat} (h : c < 256) :
    intToS2kCount fl (countValue c) = .ok [UInt8.ofNat c] := by
  obtain ⟨h1, h2⟩ := countValue_bounds h
  have hf := hl _ h1 h2
  have tab : ∀ c : Fin 256, intToS2kCount Nat.log2 (countValue c.val) = .ok [UInt8.ofNat c.val] := by decide +kernel
  have := tab ⟨c, h⟩
  unfold intToS2kCount at this ⊢
  rw [hf]; exact this

theorem intToS2kCount_ok {fl : Nat → Nat} (hl : LogOnCounts fl) {i : Nat} {b : Bytes}
    (h : intToS2kCount fl i = .ok b) : ∃ c < 256, i = countValue c := by
  unfold intToS2kCount at h
  split at h
  · cases h
  split at h
  · cases h
  rename_i h1 h2
  rw [hl i (by omega) (by omega)] at h
  dsimp only at h
  split at h
  · cases h
  rename_i h3
  have hne : i ≠ 0 := by omega
  have e1 := Nat.log2_self_le hne
  have e2 := Nat.lt_log2_self (n := i)
  have hlo : 10 ≤ Nat.log2 i := (Nat.le_log2 hne).mpr (by omega)
  have hhi : Nat.log2 i < 26 := (Nat.log2_lt hne).mpr (by omega)
  generalize hL : Nat.log2 i = L at *
  obtain ⟨s, rfl⟩ : ∃ s, L = s + 4 := ⟨L - 4, by omega⟩
  rw [Nat.add_sub_cancel] at h3
  rw [Nat.one_shiftLeft, Nat.and_two_pow_sub_one_eq_mod, ne_eq, not_not] at h3
  have hd := Nat.div_add_mod i (2 ^ s)
  rw [h3, Nat.add_zero] at hd
  have p : 2 ^ (s + 4) = 16 * 2 ^ s := by rw [pow_add]; ring
  have p2 : 2 ^ (s + 4 + 1) = 32 * 2 ^ s := by rw [pow_add, pow_add]; ring
  rw [p] at e1
  rw [p2] at e2
  have hpos : 0 < 2 ^ s := Nat.pow_pos (by omega)
  have hm1 : 16 ≤ i / 2 ^ s := (Nat.le_div_iff_mul_le hpos).mpr e1
  have hm2 : i / 2 ^ s < 32 := (Nat.div_lt_iff_lt_mul hpos).mpr e2
  generalize i / 2 ^ s = m at *
  refine ⟨16 * (s - 6) + (m - 16), by omega, ?_⟩
  unfold countValue
  rw [show (16 * (s - 6) + (m - 16)) % 16 = m - 16 by omega, show (16 * (s - 6) + (m - 16)) / 16 + 6 = s by omega,
    show 16 + (m - 16) = m by omega, ← hd, Nat.mul_comm]

/-! ### derivation -/

theorem cycleTake_add (u : Bytes) (a b : Nat) : cycleTake u (u.length * a + b) = cycleTake u (u.length * a) ++ cycleTake u b := by
  unfold cycleTake
  rw [List.range_add, List.map_append, List.map_map]
  congr 1
  apply List.map_congr_left
  intro i _
  simp

theorem cycleTake_short (u : Bytes) (n : Nat) (h : n ≤ u.length) : cycleTake u n = u.take n := by
  apply List.ext_getElem
  · simp [cycleTake, h]
  · intro i h1 h2
    simp only [cycleTake, List.length_map, List.length_range] at h1
    have : i < u.length := by omega
    simp [cycleTake, Nat.mod_eq_of_lt this, this]

theorem feed_aux (u : Bytes) (hu : 0 < u.length) (k c : Nat) (hc : u.length * k ≤ c) :
    (List.range k).flatMap (fun i => u.take (min u.length (c - u.length * i))) = cycleTake u (u.length * k) := by
  induction k with
  | zero => simp [cycleTake]
  | succ k ih =>
    have e : u.length * (k + 1) = u.length * k + u.length := by ring
    rw [e] at hc
    rw [List.range_succ, List.flatMap_append, ih (by omega), e, cycleTake_add, cycleTake_short u u.length (le_refl _)]
    simp only [List.flatMap_singleton]
    rw [show min u.length (c - u.length * k) = u.length by omega]

theorem feed_eq (u : Bytes) (hu : 0 < u.length) (c : Nat) :
    (List.range ((c + u.length - 1) / u.length)).flatMap (fun i => u.take (min u.length (c - u.length * i)))
      = cycleTake u c := by
  have hd := Nat.div_add_mod c u.length
  have hm := Nat.mod_lt c hu
  generalize hq : c / u.length = q at hd
  generalize hr : c % u.length = r at hd hm
  by_cases h0 : r = 0
  · have : (c + u.length - 1) / u.length = q := by
      rw [show c + u.length - 1 = u.length * q + (u.length - 1) by omega, Nat.mul_add_div hu,
        Nat.div_eq_of_lt (by omega), Nat.add_zero]
    rw [this, feed_aux u hu _ _ (by omega), show u.length * q = c by omega]
  · have : (c + u.length - 1) / u.length = q + 1 := by
      rw [show c + u.length - 1 = u.length * q + (u.length + (r - 1)) by omega, Nat.mul_add_div hu,
        Nat.add_div_left _ hu, Nat.div_eq_of_lt (by omega)]
    rw [this, List.range_succ, List.flatMap_append, feed_aux u hu _ _ (by omega)]
    simp only [List.flatMap_singleton]
    rw [show c - u.length * q = r by omega, Nat.min_eq_right (by omega),
      ← cycleTake_short u _ (by omega), ← cycleTake_add, hd]

/-- The hash functions have the digest lengths of RFC 4880. -/
def DigestOk (H : Digest) : Prop := ∀ alg n, digestOctets alg = some n → ∀ d, (H alg d).length = n

theorem hashLengths_pos {alg n : Nat} (h : hashLengths alg = some n) : 0 < n ∧ getHashInstance alg = .ok () := by
  unfold hashLengths at h
  split at h <;> first | (cases h; done) | (cases h; exact ⟨by decide, by decide⟩)

theorem loop_eq (H : Digest) (s : S2K) (pass : Bytes) (count len2 hl req : Nat)
    (hhl : hashLengths s.hash = some hl) (fuel : Nat) :
    ∀ n result, req ≤ n + fuel →
      ∃ m, req ≤ (n + m) * hl ∧ toKeyLoop H s pass count len2 hl req (fuel + 1) n result =
        .ok (result ++ (List.range' n m).flatMap fun i =>
          H s.hash (List.replicate i 0 ++ s2kFeed s.saltOf pass count len2)) := by
  obtain ⟨hp, hg⟩ := hashLengths_pos hhl
  have hge : ∀ n, n ≤ n * hl := fun n => Nat.le_mul_of_pos_right n hp
  induction fuel with
  | zero =>
    intro n result h
    have := hge n
    exact ⟨0, by simp only [Nat.add_zero] at *; omega, by rw [toKeyLoop, if_neg (by omega)]; simp⟩
  | succ fuel ih =>
    intro n result h
    by_cases hlt : n * hl < req
    · obtain ⟨m, h1, h2⟩ := ih (n + 1) (result ++ H s.hash (List.replicate n 0 ++ s2kFeed s.saltOf pass count len2))
        (by omega)
      refine ⟨m + 1, by rw [show n + (m + 1) = n + 1 + m by omega]; exact h1, ?_⟩
      rw [toKeyLoop, if_pos hlt, hg]
      simp only [except_bind_ok]
      rw [h2, List.range'_succ]
      simp
    · exact ⟨0, by simp only [Nat.add_zero]; omega, by rw [toKeyLoop, if_neg hlt]; simp⟩

theorem flatMap_length_const {α : Type} (l : List α) (f : α → Bytes) (n : Nat) (h : ∀ x ∈ l, (f x).length = n) :
    (l.flatMap f).length = l.length * n := by
  induction l with
  | nil => simp
  | cons x l ih =>
    rw [List.flatMap_cons, List.length_append, h x (by simp), ih (fun y hy => h y (by simp [hy])), List.length_cons]
    ring

/-- Once `a` blocks suffice, further blocks do not change the cut. -/
theorem derivedKey_stable (hash : Bytes → Bytes) (s : Bytes) (hl req a b : Nat) (hh : ∀ d, (hash d).length = hl)
    (ha : req ≤ a * hl) (hb : req ≤ b * hl) : derivedKey hash s a req = derivedKey hash s b req := by
  have key : ∀ a c, req ≤ a * hl → derivedKey hash s (a + c) req = derivedKey hash s a req := by
    intro a c ha
    unfold derivedKey
    rw [List.range_add, List.flatMap_append, List.take_append_of_le_length]
    rw [flatMap_length_const _ _ hl (fun i _ => hh _)]; simpa using ha
  rcases Nat.le_total a b with h | h
  · obtain ⟨c, rfl⟩ := Nat.exists_eq_add_of_le h
    exact (key a c ha).symm
  · obtain ⟨c, rfl⟩ := Nat.exists_eq_add_of_le h
    exact key b c hb

theorem toKey_gen (H : Digest) (hH : DigestOk H) (s : S2K) (pass string : Bytes) (hl req : Nat)
    (hs : ∀ a b c d e, s ≠ .gnupg a b c d e)
    (hhl : hashLengths s.hash = some hl) (hreq : keyLengths s.sym = some req)
    (hf : s2kFeed s.saltOf pass (s.countOf.getD (pass.length + 8)) (pass.length + 8) = string) (n : Nat)
    (hn : req ≤ n * hl) :
    s.toKey H pass = .ok (some (derivedKey (H s.hash) string n req)) := by
  obtain ⟨m, h1, h2⟩ := loop_eq H s pass (s.countOf.getD (pass.length + 8)) (pass.length + 8) hl req hhl req 0 []
    (by omega)
  have h3 : s.toKey H pass = (do
      let r ← toKeyLoop H s pass (s.countOf.getD (pass.length + 8)) (pass.length + 8) hl req (req + 1) 0 []
      return some (r.take req)) := by
    cases s with
    | gnupg a b c d e => exact absurd rfl (hs a b c d e)
    | simple a b => simp only [S2K.toKey, hhl, hreq]
    | salted a b c => simp only [S2K.toKey, hhl, hreq]
    | iterated a b c d => simp only [S2K.toKey, hhl, hreq]
  rw [h3, h2, hf]
  rw [Nat.zero_add] at h1
  rw [derivedKey_stable (H s.hash) string hl req n m (hH _ _ ((hashLengths_eq _).symm.trans hhl)) hn h1]
  simp [derivedKey, List.range_eq_range']

theorem derivedKey_length (hash : Bytes → Bytes) (s : Bytes) (hl req n : Nat) (hh : ∀ d, (hash d).length = hl)
    (hn : req ≤ n * hl) : (derivedKey hash s n req).length = req := by
  unfold derivedKey
  rw [List.length_take, flatMap_length_const _ _ hl (fun i _ => hh _)]; simp [hn]

namespace Props

/-- C19: every one of the 256 codes decodes to the count of RFC 4880, between 1024 and 65011712, and encodes back to the
same code. -/
theorem C19_code_roundtrip (fl : Nat → Nat) (hl : LogOnCounts fl) (c : Nat) (hc : c < 256) :
    s2kCountToInt c = countValue c ∧ 1024 ≤ s2kCountToInt c ∧ s2kCountToInt c ≤ 65011712 ∧
      intToS2kCount fl (s2kCountToInt c) = .ok [UInt8.ofNat c] := by
  rw [s2kCountToInt_eq]
  exact ⟨rfl, (countValue_bounds hc).1, (countValue_bounds hc).2, intToS2kCount_value hl hc⟩

example := C19_code_roundtrip Nat.log2 (fun _ _ _ => rfl) 96 (by decide)

/-- C19: encoding a natural number succeeds exactly when it is one of the 256 counts; otherwise it raises `ValueError`. -/
theorem C19_encode_exact (fl : Nat → Nat) (hl : LogOnCounts fl) (i : Nat) :
    (∀ c < 256, i = countValue c → intToS2kCount fl i = .ok [UInt8.ofNat c]) ∧
    ((∀ c < 256, i ≠ countValue c) → intToS2kCount fl i = .error .valueError) := by
  constructor
  · rintro c hc rfl; exact intToS2kCount_value hl hc
  · intro h
    cases hr : intToS2kCount fl i with
    | ok b =>
      obtain ⟨c, hc, he⟩ := intToS2kCount_ok hl hr
      exact absurd he (h c hc)
    | error e =>
      unfold intToS2kCount at hr
      split at hr
      · cases hr; rfl
      · split at hr
        · cases hr; rfl
        · dsimp only at hr
          split at hr
          · cases hr; rfl
          · split at hr
            · cases hr; rfl
            · unfold byteOf at hr
              split at hr
              · cases hr
              · cases hr; rfl

example := C19_encode_exact Nat.log2 (fun _ _ _ => rfl) 65536

/-- C19: a larger code means a strictly larger count, so the 256 counts are distinct. -/
theorem C19_decode_strictly_increasing (c d : Nat) (h : c < d) (hd : d < 256) : s2kCountToInt c < s2kCountToInt d := by
  have step : ∀ c : Fin 255, countValue c.val < countValue (c.val + 1) := by decide +kernel
  rw [s2kCountToInt_eq, s2kCountToInt_eq]
  induction d with
  | zero => omega
  | succ d ih =>
    have := step ⟨d, by omega⟩
    rcases Nat.lt_or_ge c d with h1 | h1
    · exact Nat.lt_trans (ih h1 (by omega)) this
    · have : c = d := by omega
      subst this; assumption

/-- the exact logarithm is such a logarithm -/
example : LogOnCounts Nat.log2 := fun _ _ _ => rfl

/-- C20: simple S2K: the key is cut from the hashes of the passphrase alone, has exactly the key length, and does not
depend on how many hashes beyond the needed ones are computed. -/
theorem C20_simple_partial (H : Digest) (hH : DigestOk H) (hash sym : Nat) (pass : Bytes) (hl req : Nat)
    (h1 : digestOctets hash = some hl) (h2 : cipherKeyOctets sym = some req) (h10 : sym ≠ 10) (n : Nat) (hn : req ≤ n * hl) :
    (S2K.simple hash sym).toKey H pass = .ok (some (derivedKey (H hash) pass n req)) ∧
      (derivedKey (H hash) pass n req).length = req := by
  refine ⟨?_, derivedKey_length _ _ hl _ _ (hH _ _ h1) hn⟩
  refine toKey_gen H hH (S2K.simple hash sym) pass pass hl req (by simp) ((hashLengths_eq _).trans h1) (keyLengths_of h2 h10) ?_ n hn
  simp only [S2K.saltOf, S2K.countOf, Option.getD_none, s2kFeed]
  rw [show (pass.length + 8 + (pass.length + 8) - 1) / (pass.length + 8) = 1 by
    rw [show pass.length + 8 + (pass.length + 8) - 1 = (pass.length + 8) * 1 + (pass.length + 7) by omega,
      Nat.mul_add_div (by omega), Nat.div_eq_of_lt (by omega)]]
  simpa using List.take_of_length_le (by omega)

example := C20_simple_partial (fun alg _ => List.replicate ((digestOctets alg).getD 0) 7) (fun alg n h d => by simp [h]) 2 9 [1, 2, 3] 20 32 rfl rfl
  (by decide) 2 (by decide)

/-- C20: salted S2K: the same for salt followed by passphrase (8-octet salt). -/
theorem C20_salted_partial (H : Digest) (hH : DigestOk H) (hash sym : Nat) (salt pass : Bytes) (hs : salt.length = 8)
    (hl req : Nat) (h1 : digestOctets hash = some hl) (h2 : cipherKeyOctets sym = some req) (h10 : sym ≠ 10) (n : Nat) (hn : req ≤ n * hl) :
    (S2K.salted hash sym salt).toKey H pass = .ok (some (derivedKey (H hash) (salt ++ pass) n req)) ∧
      (derivedKey (H hash) (salt ++ pass) n req).length = req := by
  refine ⟨?_, derivedKey_length _ _ hl _ _ (hH _ _ h1) hn⟩
  refine toKey_gen H hH (S2K.salted hash sym salt) pass _ hl req (by simp) ((hashLengths_eq _).trans h1) (keyLengths_of h2 h10) ?_ n hn
  simp only [S2K.saltOf, S2K.countOf, Option.getD_none, s2kFeed]
  rw [show (pass.length + 8 + (pass.length + 8) - 1) / (pass.length + 8) = 1 by
    rw [show pass.length + 8 + (pass.length + 8) - 1 = (pass.length + 8) * 1 + (pass.length + 7) by omega,
      Nat.mul_add_div (by omega), Nat.div_eq_of_lt (by omega)]]
  have : (salt ++ pass).length = pass.length + 8 := by simp [hs]; omega
  simpa [← this] using List.take_of_length_le (by simp)

example := C20_salted_partial (fun alg _ => List.replicate ((digestOctets alg).getD 0) 7) (fun alg n h d => by simp [h]) 2 9 [1, 2, 3, 4, 5, 6, 7, 8] [1, 2, 3]
  rfl 20 32 rfl rfl (by decide) 2 (by decide)

/-- C20: iterated and salted S2K: the same for salt followed by passphrase, repeated and cut to exactly `count` octets. -/
theorem C20_iterated_partial (H : Digest) (hH : DigestOk H) (hash sym : Nat) (salt pass : Bytes) (hs : salt.length = 8)
    (count hl req : Nat) (h1 : digestOctets hash = some hl) (h2 : cipherKeyOctets sym = some req) (h10 : sym ≠ 10) (n : Nat)
    (hn : req ≤ n * hl) :
    (S2K.iterated hash sym salt count).toKey H pass
        = .ok (some (derivedKey (H hash) (cycleTake (salt ++ pass) count) n req)) ∧
      (derivedKey (H hash) (cycleTake (salt ++ pass) count) n req).length = req := by
  refine ⟨?_, derivedKey_length _ _ hl _ _ (hH _ _ h1) hn⟩
  refine toKey_gen H hH (S2K.iterated hash sym salt count) pass _ hl req (by simp) ((hashLengths_eq _).trans h1) (keyLengths_of h2 h10) ?_ n hn
  simp only [S2K.saltOf, S2K.countOf, Option.getD_some, s2kFeed]
  have : (salt ++ pass).length = pass.length + 8 := by simp [hs]; omega
  rw [← this]
  exact feed_eq _ (by omega) count

example := C20_iterated_partial (fun alg _ => List.replicate ((digestOctets alg).getD 0) 7) (fun alg n h d => by simp [h]) 2 9 [1, 2, 3, 4, 5, 6, 7, 8] [1, 2, 3]
  rfl 65536 20 32 rfl rfl (by decide) 2 (by decide)

/-- C20: an unknown hash or cipher code raises `TypeError`, never a wrong key. -/
theorem C20_unknown_algorithm (H : Digest) (s : S2K) (pass : Bytes) (hs : ∀ a b c d e, s ≠ .gnupg a b c d e)
    (h : digestOctets s.hash = none ∨ tableKeyOctets s.sym = none) : s.toKey H pass = .error .typeError := by
  rw [← hashLengths_eq, ← keyLengths_eq] at h
  cases s with
  | gnupg a b c d e => exact absurd rfl (hs a b c d e)
  | simple a b =>
    simp only [S2K.hash, S2K.sym] at h
    rcases h with h | h <;> simp only [S2K.toKey, S2K.hash, S2K.sym, h] <;> cases hashLengths a <;> rfl
  | salted a b c =>
    simp only [S2K.hash, S2K.sym] at h
    rcases h with h | h <;> simp only [S2K.toKey, S2K.hash, S2K.sym, h] <;> cases hashLengths a <;> rfl
  | iterated a b c d =>
    simp only [S2K.hash, S2K.sym] at h
    rcases h with h | h <;> simp only [S2K.toKey, S2K.hash, S2K.sym, h] <;> cases hashLengths a <;> rfl

example := C20_unknown_algorithm (fun _ _ => []) (.simple 4 9) [1, 2] (fun _ _ _ _ _ h => by cases h) (.inl rfl)

/-- C20 (refuted for Twofish): the table gives Twofish 16 octets, so every specifier for it derives a key of half the 32 octets that
RFC 4880 section 9.2 requires. -/
theorem C20_twofish_refuted (H : Digest) (hH : DigestOk H) (s : S2K) (pass : Bytes) (hs : ∀ a b c d e, s ≠ .gnupg a b c d e)
    (h10 : s.sym = 10) (hl : Nat) (h1 : digestOctets s.hash = some hl) :
    ∃ key, s.toKey H pass = .ok (some key) ∧ key.length = 16 ∧ cipherKeyOctets s.sym = some 32 := by
  have h1' := (hashLengths_eq _).trans h1
  have hp := (hashLengths_pos h1').1
  have hn : 16 ≤ 16 * hl := Nat.le_mul_of_pos_right 16 hp
  exact ⟨_, toKey_gen H hH s pass _ hl 16 hs h1' (by rw [h10]; rfl) rfl 16 hn, derivedKey_length _ _ hl _ _ (hH _ _ h1) hn, by rw [h10]; rfl⟩

example := C20_twofish_refuted (fun alg _ => List.replicate ((digestOctets alg).getD 0) 7) (fun alg n h d => by simp [h])
  (.iterated 8 10 [1, 2, 3, 4, 5, 6, 7, 8] 65536) [1] (fun _ _ _ _ _ h => by cases h) rfl 32 rfl

/-- C20 (limit): RFC 4880 3.7.1.3 requires the whole salt and passphrase to be hashed at least once. The code hashes only
`count` octets, so two passphrases that agree on the first `count - 8` octets give the same key. -/
theorem C20_long_passphrase_truncated (H : Digest) (hH : DigestOk H) (hash sym : Nat) (salt p1 p2 : Bytes)
    (hs : salt.length = 8) (count hl req : Nat) (h1 : digestOctets hash = some hl) (h2 : cipherKeyOctets sym = some req) (h10 : sym ≠ 10)
    (hc1 : count ≤ p1.length + 8) (hc2 : count ≤ p2.length + 8) (he : p1.take (count - 8) = p2.take (count - 8)) :
    (S2K.iterated hash sym salt count).toKey H p1 = (S2K.iterated hash sym salt count).toKey H p2 := by
  have hp := (hashLengths_pos ((hashLengths_eq _).trans h1)).1
  have hn : req ≤ req * hl := Nat.le_mul_of_pos_right req hp
  rw [(C20_iterated_partial H hH hash sym salt p1 hs count hl req h1 h2 h10 req hn).1,
    (C20_iterated_partial H hH hash sym salt p2 hs count hl req h1 h2 h10 req hn).1]
  rw [cycleTake_short _ _ (by simp [hs]; omega), cycleTake_short _ _ (by simp [hs]; omega)]
  simp only [List.take_append, hs, he]

example := C20_long_passphrase_truncated (fun alg _ => List.replicate ((digestOctets alg).getD 0) 7) (fun alg n h d => by simp [h]) 2 9
  [1, 2, 3, 4, 5, 6, 7, 8] [1, 2, 3] [1, 2, 4] rfl 10 20 32 rfl rfl (by decide) (by decide) (by decide) rfl

example : DigestOk (fun alg _ => List.replicate ((digestOctets alg).getD 0) 7) ∧ digestOctets 2 = some 20 ∧
    cipherKeyOctets 9 = some 32 ∧ 32 ≤ 2 * 20 := by
  refine ⟨?_, rfl, rfl, by decide⟩
  intro alg n h d; simp [h]

/-- The specifiers a key or message can carry: octet-sized hash code, 8-octet salt, one of the 256 counts. -/
def Encodable : S2K → Prop
  | .simple h _ => h < 256
  | .salted h _ salt => h < 256 ∧ salt.length = 8
  | .iterated h _ salt count => h < 256 ∧ salt.length = 8 ∧ ∃ c < 256, count = countValue c
  | .gnupg _ _ _ _ _ => False

/-- C21: a simple, salted or iterated specifier, embedded anywhere in any data, parses back to itself and the offset ends
just past it. -/
theorem C21_s2k_roundtrip (fl : Nat → Nat) (hl : LogOnCounts fl) (s : S2K) (he : Encodable s) :
    ∃ enc, s.toBytes fl = .ok enc ∧
      ∀ pre post : Bytes, parseS2k s.sym (pre ++ enc ++ post) pre.length = .ok (s, pre.length + enc.length) := by
  cases s with
  | gnupg a b c d e => exact absurd he id
  | simple h sym =>
    have hb := byteOf_lt he
    refine ⟨[0, UInt8.ofNat h], by simp [S2K.toBytes, hb], ?_⟩
    intro pre post
    have d0 : (pre ++ [0, UInt8.ofNat h] ++ post).drop pre.length = 0 :: UInt8.ofNat h :: post := by simp
    have d1 := drop_succ_of_drop d0
    simp only [parseS2k, idx_of_drop d0, idx_of_drop d1, except_bind_ok, if_true, toNat_ofNat_lt he]
    rfl
  | salted h sym salt =>
    obtain ⟨hh, hs⟩ := he
    have hb := byteOf_lt hh
    refine ⟨[1, UInt8.ofNat h] ++ salt, by simp [S2K.toBytes, hb], ?_⟩
    intro pre post
    have d0 : (pre ++ ([1, UInt8.ofNat h] ++ salt) ++ post).drop pre.length = 1 :: UInt8.ofNat h :: (salt ++ post) := by
      simp
    have d1 := drop_succ_of_drop d0
    have d2 := drop_succ_of_drop d1
    have hsl := slice_of_drop d2 (j := pre.length + 1 + 1 + 8) (by omega)
    simp only [parseS2k, idx_of_drop d0, idx_of_drop d1, except_bind_ok, hsl, toNat_ofNat_lt hh]
    simp [hs, S2K.sym]
  | iterated h sym salt count =>
    obtain ⟨hh, hs, c, hc, rfl⟩ := he
    have hb := byteOf_lt hh
    have hcount := intToS2kCount_value hl hc
    refine ⟨[3, UInt8.ofNat h] ++ salt ++ [UInt8.ofNat c], by simp [S2K.toBytes, hb, hcount], ?_⟩
    intro pre post
    have d0 : (pre ++ ([3, UInt8.ofNat h] ++ salt ++ [UInt8.ofNat c]) ++ post).drop pre.length =
        3 :: UInt8.ofNat h :: (salt ++ (UInt8.ofNat c :: post)) := by simp
    have d1 := drop_succ_of_drop d0
    have d2 := drop_succ_of_drop d1
    have hsl := slice_of_drop d2 (j := pre.length + 1 + 1 + 8) (by omega)
    have d3 := drop_add_of_drop' d2 (n := 8) hs.symm
    simp only [parseS2k, idx_of_drop d0, idx_of_drop d1, except_bind_ok, hsl, toNat_ofNat_lt hh, idx_of_drop d3,
      toNat_ofNat_lt hc, s2kCountToInt_eq]
    simp [hs, S2K.sym]

example := C21_s2k_roundtrip Nat.log2 (fun _ _ _ => rfl) (.iterated 8 9 [1, 2, 3, 4, 5, 6, 7, 8] 65536) ⟨by decide, rfl, 96, by decide, by decide⟩

/-- C21: whatever parses as a simple, salted or iterated specifier (with a complete salt) writes back exactly the octets
that were read. -/
theorem C21_s2k_canonical (fl : Nat → Nat) (hl : LogOnCounts fl) (sym : Nat) (data : Bytes) (off : Nat) (s : S2K)
    (off' : Nat) (h : parseS2k sym data off = .ok (s, off')) (hg : ∀ a b c d e, s ≠ .gnupg a b c d e)
    (hlen : off' ≤ data.length) : s.toBytes fl = .ok (slice data off off') := by
  unfold parseS2k at h
  obtain ⟨t, ht, h⟩ := except_bind_eq_ok.mp h
  obtain ⟨s0, e0⟩ := idx_ok ht
  have e1 := drop_succ_of_drop e0
  dsimp only at h
  by_cases t0 : t = 0
  · subst t0
    rw [if_pos rfl] at h
    obtain ⟨x, hx, h⟩ := except_bind_eq_ok.mp h
    cases h
    obtain ⟨s1, f1⟩ := idx_ok hx
    rw [f1] at e1
    have := x.toNat_lt
    simp only [S2K.toBytes, byteOf_lt (n := x.toNat) x.toNat_lt, slice, e0, ← e1]
    simp
    rw [show off + 1 + 1 - off = 2 by omega]; rfl
  rw [if_neg t0] at h
  by_cases t1 : t = 1
  · subst t1
    rw [if_pos rfl] at h
    obtain ⟨x, hx, h⟩ := except_bind_eq_ok.mp h
    cases h
    obtain ⟨s1, f1⟩ := idx_ok hx
    rw [f1] at e1
    have e2 := drop_succ_of_drop f1
    simp only [S2K.toBytes, byteOf_lt (n := x.toNat) x.toNat_lt, slice, e0, ← e1, e2]
    simp
    rw [show off + 1 + 1 + 8 - off = 10 by omega]; rfl
  rw [if_neg t1] at h
  by_cases t3 : t = 3
  · subst t3
    rw [if_pos rfl] at h
    obtain ⟨x, hx, h⟩ := except_bind_eq_ok.mp h
    obtain ⟨y, hy, h⟩ := except_bind_eq_ok.mp h
    cases h
    obtain ⟨s1, f1⟩ := idx_ok hx
    rw [f1] at e1
    have e2 := drop_succ_of_drop f1
    obtain ⟨s3, f3⟩ := idx_ok hy
    rw [← List.drop_drop, e2] at f3
    have hc := intToS2kCount_value hl y.toNat_lt
    simp only [S2K.toBytes, byteOf_lt (n := x.toNat) x.toNat_lt, slice, e0, ← e1, e2, s2kCountToInt_eq, hc]
    simp
    rw [show off + 1 + 1 + 8 + 1 - off = 11 by omega]
    simp only [List.take_succ_cons]
    rw [List.take_add (i := 8) (j := 1), f3]; rfl
  rw [if_neg t3] at h
  split at h
  · obtain ⟨x, hx, h⟩ := except_bind_eq_ok.mp h
    split at h
    · cases h
    · obtain ⟨m, hm, h⟩ := except_bind_eq_ok.mp h
      split at h
      · cases h; exact absurd rfl (hg _ _ _ _ _)
      · split at h
        · obtain ⟨n, hn, h⟩ := except_bind_eq_ok.mp h
          obtain ⟨ser, hser, h⟩ := except_bind_eq_ok.mp h
          cases h; exact absurd rfl (hg _ _ _ _ _)
        · cases h
  · cases h

example := C21_s2k_canonical Nat.log2 (fun _ _ _ => rfl) 9 [7, 3, 8, 1, 2, 3, 4, 5, 6, 7, 8, 96, 7] 1 (.iterated 8 9 [1, 2, 3, 4, 5, 6, 7, 8] 65536) 12
  (by decide +kernel) (fun _ _ _ _ _ h => by cases h) (by decide)

/-- C21 (limit): the GnuPG extension parses (e.g. the dummy form) but can never be serialised: `TypeError`. -/
theorem C21_gnupg_not_serialisable (fl : Nat → Nat) (h m sym : Nat) (ser : Option (List Char)) (n : Option Nat) :
    (S2K.gnupg h m sym ser n).toBytes fl = .error .typeError ∧
      parseS2k 9 [101, 2, 0x47, 0x4e, 0x55, 1] 0 = .ok (.gnupg 2 1001 9 none none, 6) := ⟨rfl, by decide⟩

example : Encodable (.iterated 8 9 [1, 2, 3, 4, 5, 6, 7, 8] 65536) := ⟨by decide, rfl, 96, by decide, by decide⟩

end Props
end Pgp
