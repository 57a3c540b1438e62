import Verif.Model.Commands
import Verif.Spec.Commands
import Verif.Lemmas.Utils
import Mathlib.Data.List.Basic
/-
Lemmas about the encryption command.
-/
namespace Pgp
open Spec

theorem cipherAcceptable_some (c : Nat) (keys : List RecipientKey) :
    ∃ b, cipherAcceptable c (keys.map some) = .ok b ∧ (b = true ↔ SharedCipher keys c) := by
  induction keys with
  | nil => exact ⟨true, rfl, by simp [SharedCipher]⟩
  | cons k ks ih =>
    obtain ⟨b, hb, hiff⟩ := ih
    simp only [List.map_cons, cipherAcceptable]
    split
    · rename_i h
      refine ⟨b, hb, ?_⟩
      rw [hiff]
      simp only [SharedCipher, List.mem_cons, forall_eq_or_imp, h, true_and]
    · rename_i h
      refine ⟨false, rfl, ?_⟩
      simp [SharedCipher, h]

theorem chooseCipherLoop_some (keys : List RecipientKey) (pref : List Nat) :
    (∃ c, chooseCipherLoop (keys.map some) pref = .ok c ∧ FirstShared pref keys c) ∨
    (chooseCipherLoop (keys.map some) pref = .error .attributeError ∧ ∀ c ∈ pref, ¬ SharedCipher keys c) := by
  induction pref with
  | nil => exact Or.inr ⟨rfl, by simp⟩
  | cons c cs ih =>
    obtain ⟨b, hb, hiff⟩ := cipherAcceptable_some c keys
    simp only [chooseCipherLoop, hb, except_bind_ok]
    cases b with
    | true =>
      left
      refine ⟨c, rfl, [], cs, rfl, hiff.mp rfl, by simp⟩
    | false =>
      have hc : ¬ SharedCipher keys c := fun h => by simpa using hiff.mpr h
      simp only [Bool.false_eq_true, if_false]
      rcases ih with ⟨d, hd, pre, post, e, h1, h2⟩ | ⟨h1, h2⟩
      · left
        refine ⟨d, hd, c :: pre, post, by rw [e]; rfl, h1, ?_⟩
        intro x hx
        rcases List.mem_cons.mp hx with rfl | hx
        · exact hc
        · exact h2 x hx
      · right
        refine ⟨h1, ?_⟩
        intro x hx
        rcases List.mem_cons.mp hx with rfl | hx
        · exact hc
        · exact h2 x hx

theorem firstShared_unique {pref : List Nat} {keys : List RecipientKey} {c d : Nat} (hc : FirstShared pref keys c)
    (hd : FirstShared pref keys d) : c = d := by
  induction pref with
  | nil => obtain ⟨pre, post, e, -⟩ := hc; simp at e
  | cons p ps ih =>
    obtain ⟨pre, post, e, h1, h2⟩ := hc
    obtain ⟨pre', post', e', h1', h2'⟩ := hd
    cases pre with
    | nil =>
      cases pre' with
      | nil => simp at e e'; rw [← e.1, e'.1]
      | cons q pre' =>
        simp at e e'
        rw [← e'.1, e.1] at h2'
        exact absurd h1 (h2' c (by simp))
    | cons q pre =>
      cases pre' with
      | nil =>
        simp at e e'
        rw [← e.1, e'.1] at h2
        exact absurd h1' (h2 d (by simp))
      | cons q' pre' =>
        simp at e e'
        exact ih ⟨pre, post, e.2, h1, fun x hx => h2 x (by simp [hx])⟩ ⟨pre', post', e'.2, h1', fun x hx => h2' x (by simp [hx])⟩

theorem allSupportMdc_some (keys : List RecipientKey) : allSupportMdc (keys.map some) = .ok (keys.all (·.mdc)) := by
  induction keys with
  | nil => rfl
  | cons k ks ih =>
    simp only [List.map_cons, allSupportMdc, ih, List.all_cons]
    cases h : k.mdc <;> simp

theorem pySplit_of_not_mem (sep : Char) (s : List Char) (h : sep ∉ s) : pySplit sep s = [s] := by
  induction s with
  | nil => rfl
  | cons c s ih =>
    simp only [List.mem_cons, not_or] at h
    rw [pySplit, if_neg (Ne.symm h.1), ih h.2]

theorem pySplit_append (sep : Char) (w s : List Char) (h : sep ∉ w) : pySplit sep (w ++ sep :: s) = w :: pySplit sep s := by
  induction w with
  | nil => simp [pySplit]
  | cons c w ih =>
    simp only [List.mem_cons, not_or] at h
    rw [List.cons_append, pySplit, if_neg (Ne.symm h.1), ih h.2]

theorem parseGroups_append (gs : List (Str × List Str)) (rs : List Str) (vals : List Str) (name members : Str) (hn : '=' ∉ name)
    (hm : '=' ∉ members) {r} (h : parseGroups gs rs vals = .ok r) :
    ∃ gs', parseGroups gs rs (vals ++ [name ++ '=' :: members]) = .ok (gs', pyWords members) := by
  induction vals generalizing gs rs with
  | nil =>
    simp only [List.nil_append, parseGroups, pySplit_append '=' name members hn, pySplit_of_not_mem '=' members hm]
    exact ⟨_, rfl⟩
  | cons v vals ih =>
    simp only [List.cons_append, parseGroups] at h ⊢
    split at h
    · exact absurd h (by simp)
    · exact ih _ _ h
    · exact absurd h (by simp)

theorem expandRecipients_plain (groups : List (Str × List Str)) (acc rs : List Str) (h : ∀ r ∈ rs, r ∉ groups.map (·.1)) :
    expandRecipients groups acc rs = .ok (acc ++ rs) := by
  induction rs generalizing acc with
  | nil => simp [expandRecipients]
  | cons r rs ih =>
    rw [expandRecipients, if_neg (h r (by simp)), ih _ (fun x hx => h x (by simp [hx]))]
    simp

theorem expandRecipients_group (groups : List (Str × List Str)) (acc rs : List Str) (h : ∃ r ∈ rs, r ∈ groups.map (·.1)) :
    expandRecipients groups acc rs = .error .attributeError := by
  induction rs generalizing acc with
  | nil => simp at h
  | cons r rs ih =>
    rw [expandRecipients]
    split
    · rfl
    · rename_i hr
      refine ih _ ?_
      obtain ⟨x, hx, hm⟩ := h
      rcases List.mem_cons.mp hx with rfl | hx
      · exact absurd hm hr
      · exact ⟨x, hx, hm⟩

theorem verifyAll_ok (check : Str → Py Unit) (rs : List Str) (h : ∀ r ∈ rs, check r = .ok ()) : verifyAll check rs = .ok () := by
  induction rs with
  | nil => rfl
  | cons r rs ih => simp only [verifyAll, h r (by simp), except_bind_ok]; exact ih (fun x hx => h x (by simp [hx]))

theorem pickSubkey_spec {K : Type} (ks : List (K × Bool × Bool)) :
    (∃ k, pickSubkey ks = some k ∧ ∃ pre post, ks = pre ++ (k, false, true) :: post ∧ ∀ x ∈ pre, ¬ (x.2.1 = false ∧ x.2.2 = true)) ∨
    (pickSubkey ks = none ∧ ∀ x ∈ ks, ¬ (x.2.1 = false ∧ x.2.2 = true)) := by
  induction ks with
  | nil => exact Or.inr ⟨rfl, by simp⟩
  | cons k ks ih =>
    obtain ⟨k, r, e⟩ := k
    by_cases h : r = false ∧ e = true
    · left
      obtain ⟨rfl, rfl⟩ := h
      exact ⟨k, by simp [pickSubkey], [], ks, rfl, by simp⟩
    · have hp : pickSubkey ((k, r, e) :: ks) = pickSubkey ks := by
        cases r <;> cases e <;> simp_all [pickSubkey]
      rw [hp]
      rcases ih with ⟨k', h1, pre, post, e1, h2⟩ | ⟨h1, h2⟩
      · left
        refine ⟨k', h1, (k, r, e) :: pre, post, by rw [e1]; rfl, ?_⟩
        intro x hx
        rcases List.mem_cons.mp hx with rfl | hx
        · exact h
        · exact h2 x hx
      · right
        refine ⟨h1, ?_⟩
        intro x hx
        rcases List.mem_cons.mp hx with rfl | hx
        · exact h
        · exact h2 x hx

end Pgp
