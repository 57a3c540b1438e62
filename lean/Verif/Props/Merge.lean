import Verif.Model.Merge
import Verif.Spec.Merge
import Verif.Props.PacketEq
import Verif.Props.KeySigs
import Verif.Props.SecretKey
/-
C98: which keys are taken for copies of one another.
-/
namespace Pgp.Props
open Pgp Pgp.Spec

theorem equivalent_iff (a b : PubKey) : keysEquivalent a b = true ↔ ({ a with expirationDays := none } : PubKey) = { b with expirationDays := none } := by
  cases a; cases b
  simp [keysEquivalent]
  tauto

/-- C98: being taken for a copy is an equivalence relation. -/
theorem C98_equivalence : (∀ a, keysEquivalent a a = true) ∧ (∀ a b, keysEquivalent a b = true → keysEquivalent b a = true) ∧
    ∀ a b c, keysEquivalent a b = true → keysEquivalent b c = true → keysEquivalent a c = true := by
  simp only [equivalent_iff]
  exact ⟨fun _ => trivial, fun _ _ h => h.symm, fun _ _ _ h h' => h.trans h'⟩

theorem material_inj {v t a v' t' a' : Nat} {d d' : Option Nat} {m m' : KeyMaterial} (hm : m.fits a) (hm' : m'.fits a')
    (h : keysEquivalent (mkPubKey v t a d m) (mkPubKey v' t' a' d' m') = true) : v = v' ∧ t = t' ∧ a = a' ∧ m = m' := by
  rw [equivalent_iff] at h
  cases m <;> cases m' <;> simp [mkPubKey] at h <;> simp [h]

/-- C98: two keys read from received packets are taken for copies of one key exactly if the contents of their packets are the same octets (but for the
days of validity in versions 2 and 3). -/
theorem C98_same_octets (c1 c2 : Bytes) (h1 : PublicContent c1) (h2 : PublicContent c2) (n1 n2 : Nat) (k1 k2 : PubKey)
    (p1 : parsePubKey c1 = .ok (n1, k1)) (p2 : parsePubKey c2 = .ok (n2, k2)) :
    keysEquivalent k1 k2 = true ↔ SameKey c1 c2 := by
  obtain ⟨v, a, t, dd, m, ht, hd, hm, hi, rfl⟩ := h1
  obtain ⟨v', a', t', dd', m', ht', hd', hm', hi', rfl⟩ := h2
  obtain ⟨days, hdays, r1⟩ := publicKey_read ht hd hm hi
  obtain ⟨days', hdays', r2⟩ := publicKey_read ht' hd' hm' hi'
  have e1 := r1 []
  have e2 := r2 []
  rw [List.append_nil, p1] at e1
  rw [List.append_nil, p2] at e2
  cases e1
  cases e2
  constructor
  · intro h
    obtain ⟨hv, htt, ha, rfl⟩ := material_inj hm hm' h
    obtain rfl : v = v' := UInt8.toNat.inj hv
    obtain rfl : a = a' := UInt8.toNat.inj ha
    obtain rfl : t = t' := beNat_inj (ht.trans ht'.symm) htt
    refine ⟨v, t, dd, dd', a :: (m.ints.map mpi).flatten, ht, rfl, rfl, ?_⟩
    rcases hd with ⟨h, h1⟩ | ⟨h, h1⟩ <;> rcases hd' with ⟨h', h1'⟩ | ⟨h', h1'⟩
    · exact .inl ⟨h, h1, h1'⟩
    · rcases h with rfl | rfl <;> exact absurd h' (by decide)
    · rcases h' with rfl | rfl <;> exact absurd h (by decide)
    · exact .inr ⟨h, h1, h1'⟩
  · rintro ⟨w, s, d1, d2, rest, hs, q1, q2, hq⟩
    have split : ∀ {v w : UInt8} {t s d d1 r rest : Bytes}, t.length = 4 → s.length = 4 →
        ((v = 2 ∨ v = 3) ∧ d.length = 2 ∨ 4 ≤ v.toNat ∧ d = []) → ((w = 2 ∨ w = 3) ∧ d1.length = 2 ∨ 4 ≤ w.toNat ∧ d1 = []) →
        v :: t ++ d ++ r = w :: s ++ d1 ++ rest → v = w ∧ t = s ∧ d = d1 ∧ r = rest := by
      intro v w t s d d1 r rest ht hs hd hd1 h
      simp only [List.cons_append, List.append_assoc, List.cons.injEq] at h
      obtain ⟨rfl, h⟩ := h
      obtain ⟨ets, hrest⟩ := List.append_inj h (ht.trans hs.symm)
      clear h
      subst ets
      have hl : d.length = d1.length := by
        rcases hd with ⟨g, h1⟩ | ⟨g, rfl⟩ <;> rcases hd1 with ⟨g', h1'⟩ | ⟨g', rfl⟩
        · rw [h1, h1']
        · rcases g with rfl | rfl <;> exact absurd g' (by decide)
        · rcases g' with rfl | rfl <;> exact absurd g (by decide)
        · rfl
      obtain ⟨rfl, rfl⟩ := List.append_inj hrest hl
      exact ⟨rfl, rfl, rfl, rfl⟩
    obtain ⟨rfl, rfl, rfl, g1⟩ := split ht hs hd (by rcases hq with ⟨h, h', _⟩ | ⟨h, h', _⟩; exact .inl ⟨h, h'⟩; exact .inr ⟨h, h'⟩) q1
    obtain ⟨rfl, rfl, rfl, g2⟩ := split ht' hs hd' (by rcases hq with ⟨h, _, h'⟩ | ⟨h, _, h'⟩; exact .inl ⟨h, h'⟩; exact .inr ⟨h, h'⟩) q2
    rw [← g2] at g1
    simp only [List.cons.injEq] at g1
    obtain ⟨rfl, g1⟩ := g1
    obtain ⟨days2, _, r3⟩ := publicKey_read (dd := dd) ht hd hm' hi'
    have e3 := r3 []
    rw [List.append_nil, ← g1, p1] at e3
    have e4 := Except.ok.inj e3
    have e5 := (Prod.mk.inj e4).2
    rw [equivalent_iff]
    have e6 := congrArg (fun k : PubKey => ({ k with expirationDays := none } : PubKey)) e5
    cases m <;> cases m' <;> simpa [mkPubKey] using e6

/-- C98: keys with different octets for their fingerprints are never merged: `merge` returns the key as it is. -/
theorem C98_other_key_untouched (key candidate : MKey PubKey) (c1 c2 : Bytes) (h1 : PublicContent c1) (h2 : PublicContent c2) (n1 n2 : Nat)
    (p1 : parsePubKey c1 = .ok (n1, key.base)) (p2 : parsePubKey c2 = .ok (n2, candidate.base)) (hne : ¬ SameKey c1 c2) (rest : List (MKey PubKey)) :
    mergeKey false key (.ok (candidate :: rest)) = .ok (key, []) := by
  have h : keysEquivalent key.base candidate.base = false := by
    rw [← Bool.not_eq_true, C98_same_octets c1 c2 h1 h2 n1 n2 _ _ p1 p2]
    exact hne
  exact C39_other_key_untouched_partial keysEquivalent key candidate h

/-- C98 (refuted): if the first key found under the key id is another key, a copy of the key found behind it is not merged; and with a database that
can look keys up by their hash nothing is ever merged. -/
theorem C98_first_found_refuted (key candidate copy : MKey PubKey) (h : keysEquivalent key.base candidate.base = false)
    (_hc : keysEquivalent key.base copy.base = true) (rest : List (MKey PubKey)) (found : Py (List (MKey PubKey))) :
    mergeKey false key (.ok (candidate :: copy :: rest)) = .ok (key, []) ∧ mergeKey true key found = .error .attributeError :=
  ⟨C39_other_key_untouched_partial keysEquivalent key candidate h, rfl⟩

/-- C98: a key not in the database stays as it is; the exceptions of the search are passed on. -/
theorem C98_not_found (key : MKey PubKey) (e : PyErr) : mergeKey false key (.ok []) = .ok (key, []) ∧ mergeKey false key (.error e) = .error e := ⟨rfl, rfl⟩

/-- C98 (refuted): an unlocked RSA secret key is not taken for a copy of itself while locked. -/
theorem C98_unlocked_refuted (S : BlockCiphers) (H : Digest) (o : SecObj) (pass : Bytes) (hr : isRsa o.alg = true) (d p q u : Nat) (l : List Nat)
    (hv : o.values S H pass = .ok (d :: p :: q :: u :: l)) (hp : o.toPublic.prime = none) :
    keysEquivalent (o.unlock S H pass).1.toPublic o.toPublic = false := by
  have h := C71_prime_leaks S H o pass hr d p q u l hv
  rw [← Bool.not_eq_true, equivalent_iff]
  intro he
  have := congrArg PubKey.prime he
  simp only [h, hp] at this
  cases this

/-- Two RSA keys of version 4 with moduli 35 and 33. -/
def exMod (n : UInt8) : Bytes := [4, 0, 0, 0, 5, 1, 0, 6, n, 0, 2, 3]
example : ∃ n1 n2 k1 k2, parsePubKey (exMod 35) = .ok (n1, k1) ∧ parsePubKey (exMod 33) = .ok (n2, k2) ∧ keysEquivalent k1 k2 = false ∧
    keysEquivalent k1 k1 = true := ⟨_, _, _, _, rfl, rfl, by decide +kernel, by decide +kernel⟩

theorem exMod_content (n : UInt8) (h : 32 ≤ n.toNat ∧ n.toNat < 64) : PublicContent (exMod n) := by
  refine ⟨4, 1, [0, 0, 0, 5], [], .rsa n.toNat 3, rfl, .inr ⟨by decide, rfl⟩, .inl rfl, ?_, ?_⟩
  · intro i hi
    simp only [KeyMaterial.ints, List.mem_cons, List.not_mem_nil, or_false] at hi
    have : i < 2 ^ 8 := by rcases hi with rfl | rfl <;> omega
    exact Nat.lt_of_lt_of_le this (Nat.pow_le_pow_right (by decide) (by decide))
  · have : ∀ k : Fin 256, 32 ≤ k.val → k.val < 64 → exMod (UInt8.ofNat k.val) = (4 : UInt8) :: [0, 0, 0, 5] ++ [] ++ 1 :: ((KeyMaterial.rsa k.val 3).ints.map mpi).flatten := by
      decide +kernel
    have := this ⟨n.toNat, n.toNat_lt⟩ h.1 h.2
    simpa using this

example := C98_same_octets (exMod 35) (exMod 33) (exMod_content 35 (by decide)) (exMod_content 33 (by decide)) _ _ _ _ rfl rfl

end Pgp.Props
