import Verif.Props.SigMeaning
import Verif.Props.Malformed
/-
Property theorems C124: the numbers of a signature, taken from the octets of its packet (`pgp.utils.get_signature_values`).
-/
namespace Pgp.Props
open Spec

theorem loose_length {l : List Nat} {bs : List Bytes} (h : List.Forall₂ LooseMpi l bs) : l.length ≤ bs.flatten.length := by
  induction h with
  | nil => simp
  | cons h1 _ ih =>
    obtain ⟨bits, body, _, _, _, rfl⟩ := h1
    simp only [List.length_cons, List.flatten_cons, List.length_append, beBytes_length]
    omega

/-- C124: version 4 (and any later version): whatever the areas of the subpackets hold, the numbers given are those behind the left octets of the hash, in order,
however their bit counts are written. -/
theorem C124_numbers {v t p h x y : UInt8} {hashed unhashed : Bytes} {values : List Nat} {bs : List Bytes} (hv : 4 ≤ v.toNat)
    (l1 : hashed.length < 65536) (l2 : unhashed.length < 65536) (hm : List.Forall₂ LooseMpi values bs) :
    getSignatureValues ([v, t, p, h] ++ beBytes 2 hashed.length ++ hashed ++ beBytes 2 unhashed.length ++ unhashed ++ [x, y] ++ bs.flatten) = .ok values := by
  generalize hD : [v, t, p, h] ++ beBytes 2 hashed.length ++ hashed ++ beBytes 2 unhashed.length ++ unhashed ++ [x, y] ++ bs.flatten = data
  have d0 : data.drop 0 = v :: t :: p :: h :: (intTo2byte hashed.length ++ (hashed ++ (intTo2byte unhashed.length ++ (unhashed ++ ([x, y] ++ bs.flatten))))) := by
    rw [← hD, intTo2byte_eq, intTo2byte_eq]; simp only [List.append_assoc, List.drop_zero]; rfl
  have d1 := drop_succ_of_drop d0
  have d2 := drop_succ_of_drop d1
  have d3 := drop_succ_of_drop d2
  have d4 := drop_succ_of_drop d3
  have d6 := drop_add_of_drop' d4 (n := 2) (by rw [intTo2byte_eq, beBytes_length])
  have d7 := drop_add_of_drop d6
  have d8 := drop_add_of_drop' d7 (n := 2) (by rw [intTo2byte_eq, beBytes_length])
  have d9 := drop_add_of_drop d8
  have d10 := drop_add_of_drop' d9 (n := 2) rfl
  simp only [Nat.zero_add, Nat.reduceAdd] at d1 d2 d3 d4 d6 d7 d8 d9 d10
  have a4 := shortToInt_of_drop d4
  have a7 := shortToInt_of_drop d7
  rw [Nat.mod_eq_of_lt l1] at a4
  rw [Nat.mod_eq_of_lt l2] at a7
  have hlen : values.length ≤ data.length := by
    have h1 := loose_length hm
    have h2 : bs.flatten.length ≤ data.length := by rw [← hD]; simp only [List.length_append]; omega
    omega
  have hloop := mpiLoop_loose hm d10 hlen
  unfold getSignatureValues
  rw [idx_of_drop d0]
  simp only [except_bind_ok]
  rw [if_neg (by omega), if_pos hv]
  simp only [Nat.reduceAdd, a4, a7, except_bind_ok, hloop]

example := C124_numbers (v := 4) (t := 0x13) (p := 17) (h := 8) (x := 1) (y := 2) (hashed := [5, 2, 0, 0, 0, 1]) (unhashed := [9]) (values := [1, 257])
  (bs := [[0, 9, 0, 1], [0, 9, 1, 1]]) (by decide) (by decide) (by decide)
  (.cons ⟨9, [0, 1], by decide, rfl, rfl, rfl⟩ (.cons ⟨9, [1, 1], by decide, rfl, rfl, rfl⟩ .nil))

/-- C124: versions 2 and 3: creation time, key id, the two algorithms and the left octets of the hash lie before the numbers. -/
theorem C124_numbers_v3 {v five t p h x y : UInt8} {time id : Bytes} {values : List Nat} {bs : List Bytes} (hv : v = 2 ∨ v = 3)
    (h1 : time.length = 4) (h2 : id.length = 8) (hm : List.Forall₂ LooseMpi values bs) :
    getSignatureValues ([v, five, t] ++ time ++ id ++ [p, h, x, y] ++ bs.flatten) = .ok values := by
  generalize hD : [v, five, t] ++ time ++ id ++ [p, h, x, y] ++ bs.flatten = data
  have d0 : data.drop 0 = v :: ([five, t] ++ time ++ id ++ [p, h, x, y] ++ bs.flatten) := by rw [← hD]; rfl
  have d19 : data.drop 19 = bs.flatten := by
    rw [← hD, List.drop_left' (by simp only [List.length_append, h1, h2]; rfl)]
  have hlen : values.length ≤ data.length := by
    have h1 := loose_length hm
    have h2 : bs.flatten.length ≤ data.length := by rw [← hD]; simp only [List.length_append]; omega
    omega
  unfold getSignatureValues
  rw [idx_of_drop d0]
  simp only [except_bind_ok]
  rw [if_pos (by rcases hv with rfl | rfl <;> decide)]
  exact mpiLoop_loose hm d19 hlen

example := C124_numbers_v3 (v := 3) (five := 5) (t := 0) (p := 1) (h := 2) (x := 1) (y := 2) (time := [0, 0, 0, 1]) (id := [1, 2, 3, 4, 5, 6, 7, 8]) (values := [1, 257])
  (bs := [[0, 9, 0, 1], [0, 9, 1, 1]]) (.inr rfl) rfl rfl
  (.cons ⟨9, [0, 1], by decide, rfl, rfl, rfl⟩ (.cons ⟨9, [1, 1], by decide, rfl, rfl, rfl⟩ .nil))

/-- The numbers of a signature packet. -/
def Sig.numbers : Sig → List (Option Nat)
  | .v3 _ _ _ _ _ _ _ values => values
  | .v4 _ _ _ _ _ _ _ values => values

/-- C124 (part that holds): they are the numbers of the signature that is read from the octets, for version 4 if the two areas consist of whole subpackets, and for
versions 2 and 3 always. -/
theorem C124_same_as_read_partial {b : Bytes} {s : Sig} (hs : parseSig b = .ok s)
    (hb : (∃ t p h hashed unhashed left values, SigRaw t p h hashed unhashed left values b) ∨ b.head? = some 2 ∨ b.head? = some 3) :
    ∃ values, getSignatureValues b = .ok values ∧ Sig.numbers s = values.map some := by
  rcases hb with ⟨t, p, h, hashed, unhashed, left, values, hr⟩ | hb
  · rw [parseSig_raw hr] at hs
    obtain ⟨hs1, _, hs⟩ := except_bind_eq_ok.mp hs
    obtain ⟨us1, _, hs⟩ := except_bind_eq_ok.mp hs
    cases hs
    obtain ⟨hd, ud, vs, _, _, l1, l2, h3, h4, rfl⟩ := hr
    obtain ⟨x, y, rfl⟩ : ∃ x y, left = [x, y] := by
      match left, h3 with
      | [x, y], _ => exact ⟨x, y, rfl⟩
    exact ⟨values, C124_numbers (by decide) l1 l2 h4, rfl⟩
  · cases b with
    | nil => rcases hb with hb | hb <;> cases hb
    | cons v b =>
    have hv : v = 2 ∨ v = 3 := by
      rcases hb with hb | hb <;> cases hb
      · exact .inl rfl
      · exact .inr rfl
    have h0 : idx (v :: b) 0 = .ok v := rfl
    rw [parseSig_eq, h0] at hs
    simp only [except_bind_ok] at hs
    rw [if_pos hv] at hs
    unfold parseSigV3 at hs
    obtain ⟨_, _, hs⟩ := except_bind_eq_ok.mp hs
    split at hs
    · cases hs
    obtain ⟨_, _, hs⟩ := except_bind_eq_ok.mp hs
    obtain ⟨_, _, hs⟩ := except_bind_eq_ok.mp hs
    obtain ⟨_, _, hs⟩ := except_bind_eq_ok.mp hs
    obtain ⟨_, _, hs⟩ := except_bind_eq_ok.mp hs
    obtain ⟨_, _, hs⟩ := except_bind_eq_ok.mp hs
    obtain ⟨⟨_, vs⟩, ht, hs⟩ := except_bind_eq_ok.mp hs
    cases hs
    unfold sigTail at ht
    obtain ⟨l, hl, ht⟩ := except_bind_eq_ok.mp ht
    cases ht
    refine ⟨l, ?_, rfl⟩
    unfold getSignatureValues
    rw [h0]
    simp only [except_bind_ok]
    rw [if_pos (by rcases hv with rfl | rfl <;> decide)]
    exact hl

example : ∃ values s, parseSig exRaw = .ok s ∧ getSignatureValues exRaw = .ok values ∧ Sig.numbers s = values.map some := by
  obtain ⟨s, hs, _⟩ := exRaw_read
  obtain ⟨v, h⟩ := C124_same_as_read_partial hs (.inl ⟨_, _, _, _, _, _, _, exRaw_ok⟩)
  exact ⟨v, s, hs, h⟩

/-- C124 (refuted): the octets of a signature whose hashed area ends within a subpacket are read as a signature without numbers (C60), but numbers are taken from them. -/
theorem C124_overrun_refuted : ∃ b s, parseSig b = .ok s ∧ Sig.numbers s = [] ∧ ∃ i l, getSignatureValues b = .ok (i :: l) := by
  refine ⟨_, _, C60_hashed_area_overrun Nat.log2 0x13 1 8 (.plain false (.prefSym (List.replicate 191 0))) ?_ (192 :: 0 :: 11 :: List.replicate 191 0) ?_ [0, 0] rfl, rfl, ?_⟩
  · exact .plain (fun x hx => by rw [List.eq_of_mem_replicate hx]; decide)
  · decide +kernel
  · exact ⟨0, List.replicate 90 0, by decide +kernel⟩

/-- C124: octets that are cut off raise IndexError; there is no other exception, and an end is always reached. -/
theorem C124_errors (e : PyErr) : (∃ data, getSignatureValues data = .error e) ↔ e = .indexError := by
  have hloop : ∀ data o, Only [.indexError] (mpiLoop data data.length o) := fun data o =>
    only_mono (only_noDiv (mpiLoop_fuel data data.length o (by omega)) (only_mpiLoop data _ _)) (by decide)
  have hshort : ∀ data o, Only [.indexError] (shortToInt data o) := fun data o => only_int (by decide) _ _ _
  constructor
  · rintro ⟨data, h⟩
    have : Only [.indexError] (getSignatureValues data) := by
      unfold getSignatureValues
      refine only_bind (only_idx (by decide) _ _) fun v _ => ?_
      refine only_ite (hloop _ _) (only_ite ?_ (hloop _ _))
      exact only_bind (hshort _ _) fun _ _ => only_bind (hshort _ _) fun _ _ => hloop _ _
    simpa using this e h
  · rintro rfl
    exact ⟨[], rfl⟩

end Pgp.Props
