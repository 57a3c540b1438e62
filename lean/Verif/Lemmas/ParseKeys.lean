import Verif.Spec.Parse
import Verif.Lemmas.Utils
/-
The order check of parse.py is a finite automaton, and the automaton's language is the grammar.
-/
namespace Pgp
open Spec

inductive PStage | direct | uid | attr | sub | bound | revoked
  deriving DecidableEq

/-- The automaton. -/
def pStep (version : Nat) (st : PStage) (p : PPacket) : Option PStage :=
  if p.raw = 2 then
    if p.sigType = 0x1f ∨ p.sigType = 0x20 then if st = .direct then some .direct else none
    else if p.sigType = 0x18 then if st = .sub then some .bound else none
    else if p.sigType = 0x28 then if st = .bound then some .revoked else none
    else if p.sigType ∈ [0x10, 0x11, 0x12, 0x13] then if st = .uid ∨ st = .attr then some st else none
    else none
  else if p.raw = 13 then if st = .direct ∨ st = .uid then some .uid else none
  else if p.raw = 17 then if st = .direct ∨ st = .uid ∨ st = .attr then some .attr else none
  else if p.raw = 14 then if 4 ≤ version ∧ st ≠ .sub then some .sub else none
  else none

def pAccepts (version : Nat) : PStage → List PPacket → Prop
  | st, [] => st ≠ .sub
  | st, p :: rest => ∃ st', pStep version st p = some st' ∧ pAccepts version st' rest

def pStageRaw : PStage → Nat
  | .direct => 6
  | .uid => 13
  | .attr => 17
  | _ => 14

def pAll (before : List PPacket) (types : List Nat) : Prop := ∀ p ∈ before, p.raw ∈ types

theorem pAll_snoc {before : List PPacket} {p : PPacket} {types : List Nat} : pAll (before ++ [p]) types ↔ pAll before types ∧ p.raw ∈ types := by
  unfold pAll
  simp only [List.mem_append, List.mem_singleton, or_imp, forall_and, forall_eq]

theorem pAll_iff {before : List PPacket} {types : List Nat} : (before.all fun t => decide (t.raw ∈ types)) = true ↔ pAll before types := by
  simp [pAll]

/-- What the packets so far have to do with the state. -/
structure PRel (before : List PPacket) (st : PStage) : Prop where
  nonSig : ∃ q, lastNonSig before = some q ∧ q.raw = pStageRaw st
  prev : ∃ q, before.getLast? = some q ∧ (q.raw = 14 ↔ st = .sub) ∧ (q.raw = 2 ∧ q.sigType = 0x18 ↔ st = .bound)
  t1 : pAll before [6, 2] ↔ st = .direct
  t2 : pAll before [6, 2, 13] ↔ st = .direct ∨ st = .uid
  t3 : pAll before [6, 2, 13, 17] ↔ st = .direct ∨ st = .uid ∨ st = .attr

theorem lastNonSig_snoc (before : List PPacket) (p : PPacket) : lastNonSig (before ++ [p]) = if p.raw = 2 then lastNonSig before else some p := by
  unfold lastNonSig
  rw [List.reverse_append, List.reverse_singleton, List.singleton_append]
  by_cases h : p.raw = 2
  · rw [if_pos h, List.filter_cons_of_neg (by simpa using h)]
  · rw [if_neg h, List.filter_cons_of_pos (by simpa using h)]; rfl

theorem PRel.start (k : PPacket) (h : k.raw = 6) : PRel [k] .direct := by
  refine ⟨⟨k, ?_, h⟩, ⟨k, rfl, ?_, ?_⟩, ?_, ?_, ?_⟩
  · simp [lastNonSig, h]
  · simp [h]
  · simp [h]
  · simp [pAll, h]
  · simp [pAll, h]
  · simp [pAll, h]

theorem PRel.step {before : List PPacket} {st st' : PStage} {version : Nat} {p : PPacket} (hr : PRel before st) (h : pStep version st p = some st') :
    PRel (before ++ [p]) st' := by
  obtain ⟨⟨q, q1, q2⟩, ⟨l, l1, l2, l3⟩, t1, t2, t3⟩ := hr
  unfold pStep at h
  split at h
  · rename_i h2
    have key : ∀ s', (s' = st ∧ (st = .direct ∨ st = .uid ∨ st = .attr) ∧ p.sigType ≠ 0x18) ∨ (st = .sub ∧ s' = .bound ∧ p.sigType = 0x18) ∨
        (st = .bound ∧ s' = .revoked ∧ p.sigType ≠ 0x18) → PRel (before ++ [p]) s' := by
      intro s' hs
      refine ⟨⟨q, by rw [lastNonSig_snoc, if_pos h2]; exact q1, ?_⟩, ⟨p, by simp, ?_, ?_⟩, ?_, ?_, ?_⟩
      · rw [q2]; rcases hs with ⟨rfl, _⟩ | ⟨rfl, rfl, _⟩ | ⟨rfl, rfl, _⟩ <;> rfl
      · rw [h2]; rcases hs with ⟨rfl, h, _⟩ | ⟨rfl, rfl, _⟩ | ⟨rfl, rfl, _⟩
        · rcases h with rfl | rfl | rfl <;> simp
        · simp
        · simp
      · rw [h2]; rcases hs with ⟨rfl, h, h'⟩ | ⟨rfl, rfl, h'⟩ | ⟨rfl, rfl, h'⟩
        · rcases h with rfl | rfl | rfl <;> simp [h']
        · simp [h']
        · simp [h']
      all_goals (rw [pAll_snoc, h2])
      · rw [t1]; rcases hs with ⟨rfl, h, _⟩ | ⟨rfl, rfl, _⟩ | ⟨rfl, rfl, _⟩ <;> simp
      · rw [t2]; rcases hs with ⟨rfl, h, _⟩ | ⟨rfl, rfl, _⟩ | ⟨rfl, rfl, _⟩ <;> simp
      · rw [t3]; rcases hs with ⟨rfl, h, _⟩ | ⟨rfl, rfl, _⟩ | ⟨rfl, rfl, _⟩ <;> simp
    split at h
    · rename_i hs; split at h
      · rename_i hd; cases h; exact key _ (.inl ⟨hd.symm, .inl hd, by omega⟩)
      · cases h
    · split at h
      · rename_i hs; split at h
        · rename_i hd; cases h; exact key _ (.inr (.inl ⟨hd, rfl, hs⟩))
        · cases h
      · rename_i hn; split at h
        · split at h
          · rename_i hd; cases h; exact key _ (.inr (.inr ⟨hd, rfl, hn⟩))
          · cases h
        · split at h
          · split at h
            · rename_i hd; cases h; exact key _ (.inl ⟨rfl, .inr hd, hn⟩)
            · cases h
          · cases h
  · rename_i h2
    have gen : lastNonSig (before ++ [p]) = some p := by rw [lastNonSig_snoc, if_neg h2]
    split at h
    · rename_i h13
      split at h
      · rename_i hd; cases h
        refine ⟨⟨p, gen, h13⟩, ⟨p, by simp, by simp [h13], by simp [h13]⟩, ?_, ?_, ?_⟩
        all_goals (rw [pAll_snoc, h13])
        · rw [t1]; simp
        · rw [t2]; simp [hd]
        · rw [t3]; rcases hd with rfl | rfl <;> simp
      · cases h
    · split at h
      · rename_i h17
        split at h
        · rename_i hd; cases h
          refine ⟨⟨p, gen, h17⟩, ⟨p, by simp, by simp [h17], by simp [h17]⟩, ?_, ?_, ?_⟩
          all_goals (rw [pAll_snoc, h17])
          · rw [t1]; simp
          · rw [t2]; simp
          · rw [t3]; simp [hd]
        · cases h
      · split at h
        · rename_i h14
          split at h
          · cases h
            refine ⟨⟨p, gen, h14⟩, ⟨p, by simp, by simp [h14], by simp [h14]⟩, ?_, ?_, ?_⟩
            all_goals (rw [pAll_snoc, h14])
            · rw [t1]; simp
            · rw [t2]; simp
            · rw [t3]; simp
          · cases h
        · cases h

theorem okIf {c : Bool} {e : Py Unit} (he : ∀ u, e ≠ .ok u) : (if c = true then (.ok () : Py Unit) else e) = .ok () ↔ c = true := by
  cases c with
  | true => simp
  | false => simpa using he ()

theorem orderErr_ne (u : Unit) : orderErr ≠ .ok u := nofun

theorem checkPSig_iff {before : List PPacket} {st : PStage} (hr : PRel before st) {version : Nat} {p : PPacket} (h2 : p.raw = 2) :
    checkPSig before p = .ok () ↔ ∃ st', pStep version st p = some st' := by
  obtain ⟨⟨q, q1, q2⟩, ⟨l, l1, l2, l3⟩, t1, t2, t3⟩ := hr
  unfold checkPSig pStep
  rw [l1, q1, if_pos h2]
  simp only
  by_cases h1f : p.sigType = 0x1f
  · rw [if_pos h1f, if_pos (Or.inl h1f), okIf orderErr_ne, pAll_iff, t1]
    by_cases hd : st = .direct <;> simp [hd]
  · rw [if_neg h1f]
    by_cases h18 : p.sigType = 0x18
    · rw [if_pos h18, if_neg (show ¬(p.sigType = 0x1f ∨ p.sigType = 0x20) by omega), if_pos h18]
      by_cases hl : l.raw = 14
      · rw [if_neg (by simpa using hl), if_pos (l2.mp hl)]; simp
      · rw [if_pos hl, if_neg (fun h => hl (l2.mpr h))]; simp [orderErr]
    · rw [if_neg h18]
      by_cases h20 : p.sigType = 0x20
      · rw [if_pos h20, if_pos (Or.inr h20), okIf orderErr_ne, pAll_iff, t1]
        by_cases hd : st = .direct <;> simp [hd]
      · rw [if_neg h20, if_neg (show ¬(p.sigType = 0x1f ∨ p.sigType = 0x20) by omega), if_neg h18]
        by_cases h28 : p.sigType = 0x28
        · rw [if_pos h28, if_pos h28]
          by_cases hl : l.raw = 2 ∧ l.sigType = 0x18
          · rw [if_neg (by simpa using hl), if_pos (l3.mp hl)]; simp
          · rw [if_pos (by tauto), if_neg (fun h => hl (l3.mpr h))]; simp [orderErr]
        · rw [if_neg h28, if_neg h28]
          by_cases hc : p.sigType ∈ [0x10, 0x11, 0x12, 0x13]
          · rw [if_pos hc, if_pos hc, q2]
            cases st <;> simp [pStageRaw, orderErr]
          · rw [if_neg hc, if_neg hc]; simp [typeErr]

theorem validatePLoop_iff (version : Nat) (rest before : List PPacket) (st : PStage) (hr : PRel before st) (hsub : st = .sub → ∃ b r, rest = b :: r ∧ PSigOf [0x18] b) :
    validatePLoop version before rest = .ok () ↔ pAccepts version st rest := by
  induction rest generalizing before st with
  | nil =>
    simp only [validatePLoop, pAccepts, true_iff]
    intro h; obtain ⟨b, r, h, _⟩ := hsub h; cases h
  | cons p rest ih =>
    have hne : before ≠ [] := by
      obtain ⟨q, hq, _⟩ := hr.prev
      intro h; rw [h] at hq; cases hq
    simp only [validatePLoop, pAccepts]
    constructor
    · intro h
      obtain ⟨⟨⟩, hc, h⟩ := except_bind_eq_ok.mp h
      unfold checkPPacket at hc
      by_cases h6 : p.raw = 6
      · rw [if_pos h6, if_pos hne] at hc; cases hc
      · rw [if_neg h6] at hc
        split at hc
        · rename_i h2
          obtain ⟨st', hs⟩ := (checkPSig_iff (version := version) hr h2).mp hc
          refine ⟨st', hs, (ih _ _ (hr.step hs) ?_).mp h⟩
          intro e; subst e
          unfold pStep at hs
          rw [if_pos h2] at hs
          repeat (split at hs <;> try cases hs)
          rename_i hst; rcases hst with e | e <;> cases e
        · rename_i h2
          have hsub' : st ≠ .sub := by
            intro e; obtain ⟨b, r, hb, hb2⟩ := hsub e
            cases hb; exact h2 hb2.1
          split at hc
          · rename_i h13
            rw [okIf orderErr_ne, pAll_iff, hr.t2] at hc
            have hs : pStep version st p = some .uid := by unfold pStep; rw [if_neg h2, if_pos h13, if_pos hc]
            exact ⟨_, hs, (ih _ _ (hr.step hs) nofun).mp h⟩
          · rename_i h13
            split at hc
            · rename_i h17
              rw [okIf orderErr_ne, pAll_iff, hr.t3] at hc
              have hs : pStep version st p = some .attr := by unfold pStep; rw [if_neg h2, if_neg h13, if_pos h17, if_pos hc]
              exact ⟨_, hs, (ih _ _ (hr.step hs) nofun).mp h⟩
            · rename_i h17
              split at hc
              · rename_i h14
                unfold checkPSub at hc
                split at hc
                · cases hc
                · rename_i hv
                  have hs : pStep version st p = some .sub := by
                    unfold pStep; rw [if_neg h2, if_neg h13, if_neg h17, if_pos h14, if_pos ⟨by omega, hsub'⟩]
                  refine ⟨_, hs, (ih _ _ (hr.step hs) ?_).mp h⟩
                  intro _
                  cases rest with
                  | nil => cases hc
                  | cons n r =>
                    simp only at hc
                    split at hc
                    · cases hc
                    · rename_i hn
                      refine ⟨n, r, rfl, ?_⟩
                      rw [not_or, not_not, not_not] at hn
                      exact ⟨hn.1, by rw [hn.2]; decide⟩
              · cases hc
    · rintro ⟨st', hs, ha⟩
      have hchk : checkPPacket version before p rest = .ok () := by
        unfold checkPPacket
        by_cases h2 : p.raw = 2
        · rw [if_neg (by omega), if_pos h2]
          exact (checkPSig_iff (version := version) hr h2).mpr ⟨st', hs⟩
        · have hs0 := hs
          unfold pStep at hs
          rw [if_neg h2] at hs
          split at hs
          · rename_i h13
            split at hs
            · rename_i hd
              rw [if_neg (by omega), if_neg h2, if_pos h13, okIf orderErr_ne, pAll_iff, hr.t2]; exact hd
            · cases hs
          · split at hs
            · rename_i h13 h17
              split at hs
              · rename_i hd
                rw [if_neg (by omega), if_neg h2, if_neg h13, if_pos h17, okIf orderErr_ne, pAll_iff, hr.t3]; exact hd
              · cases hs
            · rename_i h13 h17
              split at hs
              · rename_i h14
                split at hs
                · rename_i hd
                  cases hs
                  rw [if_neg (by omega), if_neg h2, if_neg h13, if_neg h17, if_pos h14]
                  unfold checkPSub
                  rw [if_neg (by omega)]
                  cases rest with
                  | nil => exact absurd rfl ha
                  | cons n r =>
                    obtain ⟨st2, hs2, _⟩ := ha
                    have : n.raw = 2 ∧ n.sigType = 0x18 := by
                      unfold pStep at hs2
                      by_cases hn : n.raw = 2
                      · refine ⟨hn, ?_⟩
                        rw [if_pos hn] at hs2
                        by_contra h18
                        rw [if_neg h18] at hs2
                        repeat (split at hs2 <;> try cases hs2)
                        all_goals (rename_i hx; first | cases hx | (rcases hx with hx | hx <;> cases hx))
                      · rw [if_neg hn] at hs2
                        split at hs2
                        · rw [if_neg (by decide)] at hs2; cases hs2
                        · split at hs2
                          · rw [if_neg (by decide)] at hs2; cases hs2
                          · split at hs2
                            · rw [if_neg (by simp)] at hs2; cases hs2
                            · cases hs2
                    simp only
                    rw [if_neg (by rw [not_or, not_not, not_not]; exact this)]
                · cases hs
              · cases hs
      rw [hchk]
      simp only [except_bind_ok]
      refine (ih _ _ (hr.step hs) ?_).mpr ha
      intro e; subst e
      cases rest with
      | nil => exact absurd rfl ha
      | cons n r =>
        refine ⟨n, r, rfl, ?_⟩
        have : checkPSub version (n :: r) = .ok () := by
          have h14 : p.raw = 14 := by
            unfold pStep at hs
            by_contra h14
            rw [if_neg h14] at hs
            by_cases h2 : p.raw = 2
            · rw [if_pos h2] at hs
              repeat (split at hs <;> try cases hs)
              rename_i hst; rcases hst with e | e <;> cases e
            · rw [if_neg h2] at hs
              repeat (split at hs <;> try cases hs)
          unfold checkPPacket at hchk
          rw [if_neg (by omega), if_neg (by omega), if_neg (by omega), if_neg (by omega), if_pos h14] at hchk
          exact hchk
        unfold checkPSub at this
        split at this
        · cases this
        · simp only at this
          split at this
          · cases this
          · rename_i hn
            rw [not_or, not_not, not_not] at hn
            exact ⟨hn.1, by rw [hn.2]; decide⟩

/-! ### The automaton and the grammar -/

/-- What may follow in each state. -/
def PLang (version : Nat) : PStage → List PPacket → Prop
  | .direct, l => ∃ direct uids attrs subs, l = direct ++ List.flatten uids ++ List.flatten attrs ++ List.flatten subs ∧ (∀ p ∈ direct, PSigOf [0x1f, 0x20] p) ∧
      (∀ g ∈ uids, CertifiedPart 13 g) ∧ (∀ g ∈ attrs, CertifiedPart 17 g) ∧ (∀ g ∈ subs, BoundSubkey g) ∧ (version < 4 → subs = [])
  | .uid, l => ∃ certs uids attrs subs, l = certs ++ List.flatten uids ++ List.flatten attrs ++ List.flatten subs ∧ (∀ p ∈ certs, PSigOf [0x10, 0x11, 0x12, 0x13] p) ∧
      (∀ g ∈ uids, CertifiedPart 13 g) ∧ (∀ g ∈ attrs, CertifiedPart 17 g) ∧ (∀ g ∈ subs, BoundSubkey g) ∧ (version < 4 → subs = [])
  | .attr, l => ∃ certs attrs subs, l = certs ++ List.flatten attrs ++ List.flatten subs ∧ (∀ p ∈ certs, PSigOf [0x10, 0x11, 0x12, 0x13] p) ∧
      (∀ g ∈ attrs, CertifiedPart 17 g) ∧ (∀ g ∈ subs, BoundSubkey g) ∧ (version < 4 → subs = [])
  | .sub, l => ∃ b r subs, l = b :: r ++ List.flatten subs ∧ PSigOf [0x18] b ∧ (r = [] ∨ ∃ x, r = [x] ∧ PSigOf [0x28] x) ∧ (∀ g ∈ subs, BoundSubkey g) ∧ (version < 4 → subs = [])
  | .bound, l => ∃ r subs, l = r ++ List.flatten subs ∧ (r = [] ∨ ∃ x, r = [x] ∧ PSigOf [0x28] x) ∧ (∀ g ∈ subs, BoundSubkey g) ∧ (version < 4 → subs = [])
  | .revoked, l => ∃ subs, l = List.flatten subs ∧ (∀ g ∈ subs, BoundSubkey g) ∧ (version < 4 → subs = [])

theorem pAccepts_lang (version : Nat) (l : List PPacket) (st : PStage) (h : pAccepts version st l) : PLang version st l := by
  induction l generalizing st with
  | nil =>
    cases st with
    | direct => exact ⟨[], [], [], [], by simp⟩
    | uid => exact ⟨[], [], [], [], by simp⟩
    | attr => exact ⟨[], [], [], by simp⟩
    | sub => exact absurd rfl h
    | bound => exact ⟨[], [], by simp⟩
    | revoked => exact ⟨[], by simp⟩
  | cons p l ih =>
    obtain ⟨st', hs, ha⟩ := h
    have il := ih st' ha
    -- a subkey in any state but `sub`
    have subCase : p.raw = 14 → st' = .sub → 4 ≤ version → ∃ subs, p :: l = List.flatten subs ∧ (∀ g ∈ subs, BoundSubkey g) ∧ (version < 4 → subs = []) := by
      intro h14 e hv
      subst e
      obtain ⟨b, r, subs, e, hb, hr, hg, _⟩ := il
      refine ⟨(p :: b :: r) :: subs, by rw [e]; simp, ?_, fun h => by omega⟩
      intro g hg'
      rcases List.mem_cons.mp hg' with rfl | hg'
      · exact ⟨p, b, r, rfl, h14, hb, hr⟩
      · exact hg g hg'
    have attrCase : p.raw = 17 → st' = .attr → ∃ attrs subs, p :: l = List.flatten attrs ++ List.flatten subs ∧ (∀ g ∈ attrs, CertifiedPart 17 g) ∧
        (∀ g ∈ subs, BoundSubkey g) ∧ (version < 4 → subs = []) := by
      intro h17 e
      subst e
      obtain ⟨certs, attrs, subs, e, hc, hat, hg, hv⟩ := il
      refine ⟨(p :: certs) :: attrs, subs, by rw [e]; simp, ?_, hg, hv⟩
      intro g hg'
      rcases List.mem_cons.mp hg' with rfl | hg'
      · exact ⟨p, certs, rfl, h17, hc⟩
      · exact hat g hg'
    have uidCase : p.raw = 13 → st' = .uid → ∃ uids attrs subs, p :: l = List.flatten uids ++ List.flatten attrs ++ List.flatten subs ∧ (∀ g ∈ uids, CertifiedPart 13 g) ∧
        (∀ g ∈ attrs, CertifiedPart 17 g) ∧ (∀ g ∈ subs, BoundSubkey g) ∧ (version < 4 → subs = []) := by
      intro h13 e
      subst e
      obtain ⟨certs, uids, attrs, subs, e, hc, hui, hat, hg, hv⟩ := il
      refine ⟨(p :: certs) :: uids, attrs, subs, by rw [e]; simp, ?_, hat, hg, hv⟩
      intro g hg'
      rcases List.mem_cons.mp hg' with rfl | hg'
      · exact ⟨p, certs, rfl, h13, hc⟩
      · exact hui g hg'
    unfold pStep at hs
    split at hs
    · rename_i h2
      split at hs
      · rename_i h1
        split at hs
        · rename_i e; subst e; cases hs
          obtain ⟨direct, uids, attrs, subs, e, hd, rest⟩ := il
          refine ⟨p :: direct, uids, attrs, subs, by rw [e]; simp, ?_, rest⟩
          intro x hx
          rcases List.mem_cons.mp hx with rfl | hx
          · exact ⟨h2, by simpa using h1⟩
          · exact hd x hx
        · cases hs
      · split at hs
        · rename_i h18
          split at hs
          · rename_i e; subst e; cases hs
            obtain ⟨r, subs, e, hr, rest⟩ := il
            exact ⟨p, r, subs, by rw [e]; simp, ⟨h2, by rw [h18]; decide⟩, hr, rest⟩
          · cases hs
        · split at hs
          · rename_i h28
            split at hs
            · rename_i e; subst e; cases hs
              obtain ⟨subs, e, rest⟩ := il
              exact ⟨[p], subs, by rw [e]; simp, .inr ⟨p, rfl, h2, by rw [h28]; decide⟩, rest⟩
            · cases hs
          · split at hs
            · rename_i hc
              split at hs
              · rename_i hd; cases hs
                rcases hd with rfl | rfl
                · obtain ⟨certs, uids, attrs, subs, e, hcs, rest⟩ := il
                  refine ⟨p :: certs, uids, attrs, subs, by rw [e]; simp, ?_, rest⟩
                  intro x hx
                  rcases List.mem_cons.mp hx with rfl | hx
                  · exact ⟨h2, hc⟩
                  · exact hcs x hx
                · obtain ⟨certs, attrs, subs, e, hcs, rest⟩ := il
                  refine ⟨p :: certs, attrs, subs, by rw [e]; simp, ?_, rest⟩
                  intro x hx
                  rcases List.mem_cons.mp hx with rfl | hx
                  · exact ⟨h2, hc⟩
                  · exact hcs x hx
              · cases hs
            · cases hs
    · split at hs
      · rename_i h13
        split at hs
        · rename_i hd; cases hs
          obtain ⟨uids, attrs, subs, e, rest⟩ := uidCase h13 rfl
          rcases hd with rfl | rfl
          · exact ⟨[], uids, attrs, subs, by rw [e]; simp, by simp, rest⟩
          · exact ⟨[], uids, attrs, subs, by rw [e]; simp, by simp, rest⟩
        · cases hs
      · split at hs
        · rename_i h17
          split at hs
          · rename_i hd; cases hs
            obtain ⟨attrs, subs, e, rest⟩ := attrCase h17 rfl
            rcases hd with rfl | rfl | rfl
            · exact ⟨[], [], attrs, subs, by rw [e]; simp, by simp, by simp, rest⟩
            · exact ⟨[], [], attrs, subs, by rw [e]; simp, by simp, by simp, rest⟩
            · exact ⟨[], attrs, subs, by rw [e]; simp, by simp, rest⟩
          · cases hs
        · split at hs
          · rename_i h14
            split at hs
            · rename_i hd; cases hs
              obtain ⟨subs, e, rest⟩ := subCase h14 rfl hd.1
              cases st with
              | direct => exact ⟨[], [], [], subs, by rw [e]; simp, by simp, by simp, by simp, rest⟩
              | uid => exact ⟨[], [], [], subs, by rw [e]; simp, by simp, by simp, by simp, rest⟩
              | attr => exact ⟨[], [], subs, by rw [e]; simp, by simp, by simp, rest⟩
              | sub => exact absurd rfl hd.2
              | bound => exact ⟨[], subs, by rw [e]; simp, .inl rfl, rest⟩
              | revoked => exact ⟨subs, e, rest⟩
            · cases hs
          · cases hs

theorem pStep_cert (version : Nat) {c : PPacket} (hc : PSigOf [0x10, 0x11, 0x12, 0x13] c) {st : PStage} (h : st = .uid ∨ st = .attr) : pStep version st c = some st := by
  obtain ⟨h2, hc⟩ := hc
  have : ¬(c.sigType = 0x1f ∨ c.sigType = 0x20) ∧ ¬ c.sigType = 0x18 ∧ ¬ c.sigType = 0x28 := by
    simp only [List.mem_cons, List.not_mem_nil, or_false] at hc
    omega
  obtain ⟨a, b, d⟩ := this
  unfold pStep
  rw [if_pos h2, if_neg a, if_neg b, if_neg d, if_pos hc, if_pos h]

theorem pAccepts_certs (version : Nat) (certs l : List PPacket) (hc : ∀ p ∈ certs, PSigOf [0x10, 0x11, 0x12, 0x13] p) (st : PStage) (h : st = .uid ∨ st = .attr)
    (hl : pAccepts version st l) : pAccepts version st (certs ++ l) := by
  induction certs with
  | nil => exact hl
  | cons c certs ih =>
    exact ⟨st, pStep_cert version (hc c List.mem_cons_self) h, ih fun p hp => hc p (List.mem_cons_of_mem _ hp)⟩

theorem pAccepts_subs (version : Nat) (subs : List (List PPacket)) (hg : ∀ g ∈ subs, BoundSubkey g) (hv : version < 4 → subs = []) (st : PStage) (h : st ≠ .sub) :
    pAccepts version st subs.flatten := by
  induction subs generalizing st with
  | nil => exact h
  | cons g subs ih =>
    have hv4 : 4 ≤ version := by by_contra h; have := hv (by omega); cases this
    have ih := fun st h => ih (fun g hg' => hg g (List.mem_cons_of_mem _ hg')) (fun h => by omega) st h
    obtain ⟨s, b, r, e, hs, hb, hr⟩ := hg g List.mem_cons_self
    rw [List.flatten_cons, e]
    refine ⟨.sub, by unfold pStep; rw [if_neg (by omega), if_neg (by omega), if_neg (by omega), if_pos hs, if_pos ⟨hv4, h⟩], ?_⟩
    have h18 : b.sigType = 0x18 := by simpa using hb.2
    refine ⟨.bound, by unfold pStep; rw [if_pos hb.1, if_neg (by omega), if_pos h18, if_pos rfl], ?_⟩
    rcases hr with rfl | ⟨x, rfl, hx⟩
    · exact ih .bound nofun
    · have h28 : x.sigType = 0x28 := by simpa using hx.2
      exact ⟨.revoked, by unfold pStep; rw [if_pos hx.1, if_neg (by omega), if_neg (by omega), if_pos h28, if_pos rfl], ih .revoked nofun⟩

theorem pAccepts_attrs (version : Nat) (attrs : List (List PPacket)) (l : List PPacket) (ha : ∀ g ∈ attrs, CertifiedPart 17 g)
    (hl : ∀ st, st ≠ .sub → pAccepts version st l) (st : PStage) (h : st = .direct ∨ st = .uid ∨ st = .attr) : pAccepts version st (attrs.flatten ++ l) := by
  induction attrs generalizing st with
  | nil => exact hl st (by rcases h with rfl | rfl | rfl <;> nofun)
  | cons g attrs ih =>
    obtain ⟨u, certs, e, hu, hc⟩ := ha g List.mem_cons_self
    rw [List.flatten_cons, e, List.append_assoc]
    refine ⟨.attr, by unfold pStep; rw [if_neg (by omega), if_neg (by omega), if_pos hu, if_pos h], ?_⟩
    exact pAccepts_certs version certs _ hc .attr (.inr rfl) (ih (fun g hg => ha g (List.mem_cons_of_mem _ hg)) .attr (.inr (.inr rfl)))

theorem pAccepts_uids (version : Nat) (uids : List (List PPacket)) (l : List PPacket) (ha : ∀ g ∈ uids, CertifiedPart 13 g)
    (hl : ∀ st, st = .direct ∨ st = .uid → pAccepts version st l) (st : PStage) (h : st = .direct ∨ st = .uid) : pAccepts version st (uids.flatten ++ l) := by
  induction uids generalizing st with
  | nil => exact hl st h
  | cons g uids ih =>
    obtain ⟨u, certs, e, hu, hc⟩ := ha g List.mem_cons_self
    rw [List.flatten_cons, e, List.append_assoc]
    refine ⟨.uid, by unfold pStep; rw [if_neg (by omega), if_pos hu, if_pos h], ?_⟩
    exact pAccepts_certs version certs _ hc .uid (.inl rfl) (ih (fun g hg => ha g (List.mem_cons_of_mem _ hg)) .uid (.inr rfl))

theorem lang_pAccepts (version : Nat) (l : List PPacket) (h : PLang version .direct l) : pAccepts version .direct l := by
  obtain ⟨direct, uids, attrs, subs, rfl, hd, hu, ha, hg, hv⟩ := h
  rw [List.append_assoc, List.append_assoc]
  induction direct with
  | nil =>
    refine pAccepts_uids version uids _ hu (fun st h => ?_) _ (.inl rfl)
    exact pAccepts_attrs version attrs _ ha (fun st h => pAccepts_subs version subs hg hv st h) st (by tauto)
  | cons p direct ih =>
    obtain ⟨h2, h1⟩ := hd p List.mem_cons_self
    exact ⟨.direct, by unfold pStep; rw [if_pos h2, if_pos (by simpa using h1), if_pos rfl], ih fun q hq => hd q (List.mem_cons_of_mem _ hq)⟩

end Pgp
