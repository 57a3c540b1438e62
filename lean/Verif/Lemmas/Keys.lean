import Verif.Spec.Keys
import Verif.Lemmas.Utils
/-
The order check of transferable keys is a finite automaton, and the automaton's language is the grammar.
-/
namespace Pgp
open Spec

inductive KStage | direct | uid | attr | sub
  deriving DecidableEq

structure KState where
  stage : KStage
  seenTrust : Bool
  afterSig : Bool

/-- The next packet is a subkey binding signature. -/
def nextBinding : List KBody → Bool
  | n :: _ => n.type == 2 && n.sigType == 0x18
  | [] => false

/-- The automaton. `next` is the packets after this one. -/
def kStep (secret : Bool) (version : Nat) (st : KState) (p : KBody) (next : List KBody) : Option KState :=
  match p with
  | .key sec sub _ _ =>
    if sub = true ∧ sec = secret ∧ 4 ≤ version ∧ nextBinding next = true then some ⟨.sub, st.seenTrust, false⟩ else none
  | .sig s =>
    if s.sigType = 0x1f then if st.stage = .direct ∧ st.seenTrust = false then some ⟨.direct, false, true⟩ else none
    else if s.sigType = 0x20 then if st.stage = .direct then some ⟨.direct, st.seenTrust, true⟩ else none
    else if s.sigType = 0x18 then if st.stage = .sub then some ⟨.sub, st.seenTrust, true⟩ else none
    else if s.sigType ∈ certTypes then
      if st.stage = .uid ∨ st.stage = .attr then some ⟨st.stage, st.seenTrust, true⟩ else none
    else none
  | .uid _ => if st.stage = .direct ∨ st.stage = .uid then some ⟨.uid, st.seenTrust, false⟩ else none
  | .attr _ => if st.stage ≠ .sub then some ⟨.attr, st.seenTrust, false⟩ else none
  | .trust _ => if st.afterSig then some ⟨st.stage, true, true⟩ else none
  | .other _ => none

def kAccepts (secret : Bool) (version : Nat) : KState → List KBody → Prop
  | _, [] => True
  | st, p :: rest => match kStep secret version st p rest with
    | none => False
    | some st' => kAccepts secret version st' rest

theorem filter_dropWhile_trust (l : List KBody) :
    (((l.dropWhile (fun p => p.type = 12)).map KBody.type).filter (fun t => t ≠ 2 ∧ t ≠ 12)) =
    ((l.map KBody.type).filter (fun t => t ≠ 2 ∧ t ≠ 12)) := by
  induction l with
  | nil => rfl
  | cons p l ih =>
    by_cases h : p.type = 12
    · rw [List.dropWhile_cons_of_pos (by simpa using h), ih, List.map_cons, List.filter_cons_of_neg (by simp [h])]
    · rw [List.dropWhile_cons_of_neg (by simpa using h)]

theorem prevNonSig_snoc (before : List KBody) (p : KBody) :
    prevNonSig (before ++ [p]) = if p.type = 2 ∨ p.type = 12 then prevNonSig before else some p.type := by
  unfold prevNonSig
  rw [filter_dropWhile_trust, filter_dropWhile_trust, List.reverse_append, List.reverse_singleton, List.singleton_append, List.map_cons]
  by_cases h : p.type = 2 ∨ p.type = 12
  · rw [if_pos h, List.filter_cons_of_neg]
    simp only [ne_eq, decide_eq_true_eq]
    omega
  · rw [if_neg h, List.filter_cons_of_pos]
    · rfl
    · simp only [ne_eq, decide_eq_true_eq]
      omega

theorem prevPacket_snoc (before : List KBody) (p : KBody) :
    prevPacket (before ++ [p]) = if p.type = 12 then prevPacket before else some p := by
  unfold prevPacket
  rw [List.reverse_append, List.reverse_singleton, List.singleton_append]
  by_cases h : p.type = 12
  · rw [List.dropWhile_cons_of_pos (by simpa using h), if_pos h]
  · rw [List.dropWhile_cons_of_neg (by simpa using h), if_neg h]; rfl

def kType (secret : Bool) : Nat := if secret then 5 else 6
def sType (secret : Bool) : Nat := if secret then 7 else 14

def stageType (secret : Bool) : KStage → Nat
  | .direct => kType secret
  | .uid => 13
  | .attr => 17
  | .sub => sType secret

def allIn (before : List KBody) (types : List Nat) : Prop := ∀ p ∈ before, p.type ∈ types

/-- What the packets so far have to do with the state. -/
structure KRel (secret : Bool) (before : List KBody) (st : KState) : Prop where
  nonempty : before ≠ []
  nonSig : prevNonSig before = some (stageType secret st.stage)
  prev : ∃ q, prevPacket before = some q ∧ (q.type = 2 ↔ st.afterSig = true) ∧ (q.type = 2 → q.sigType ≠ 0x28) ∧
    (st.stage = .sub → q.type = 2 → q.sigType = 0x18)
  t1 : allIn before [kType secret, 2] ↔ st.stage = .direct ∧ st.seenTrust = false
  t2 : allIn before [kType secret, 2, 12] ↔ st.stage = .direct
  t3 : allIn before [kType secret, 2, 13, 12] ↔ st.stage = .direct ∨ st.stage = .uid
  t4 : allIn before [kType secret, 2, 13, 17, 12] ↔ st.stage ≠ .sub

theorem allIn_snoc {before : List KBody} {p : KBody} {types : List Nat} : allIn (before ++ [p]) types ↔ allIn before types ∧ p.type ∈ types := by
  unfold allIn
  simp only [List.mem_append, List.mem_singleton, or_imp, forall_and, forall_eq]

theorem onlyBefore_ok {before : List KBody} {types : List Nat} : onlyBefore before types = .ok () ↔ allIn before types := by
  unfold onlyBefore allIn
  by_cases h : (before.all (fun p => p.type ∈ types)) = true
  · rw [if_pos h]
    exact ⟨fun _ p hp => by simpa using List.all_eq_true.mp h p hp, fun _ => rfl⟩
  · rw [if_neg h]
    refine ⟨fun h' => (by cases h'), fun h' => absurd (List.all_eq_true.mpr fun p hp => by simpa using h' p hp) h⟩

theorem kType_ne (secret : Bool) : kType secret ≠ 2 ∧ kType secret ≠ 12 ∧ kType secret ≠ 13 ∧ kType secret ≠ 17 ∧ kType secret ≠ 14 ∧ kType secret ≠ 7 := by
  cases secret <;> decide

theorem sType_ne (secret : Bool) : sType secret ≠ 2 ∧ sType secret ≠ 12 ∧ sType secret ≠ 13 ∧ sType secret ≠ 17 ∧ sType secret ≠ kType secret := by
  cases secret <;> decide

theorem checkKeyPacket_sig {secret : Bool} {version : Nat} {before rest : List KBody} {s : Sig} {st : KState} (hr : KRel secret before st) {q : KBody}
    (hq : prevPacket before = some q) :
    checkKeyPacket secret version before (.sig s) rest = checkKeySig (kType secret) (sType secret) before s.sigType q (stageType secret st.stage) := by
  have h2 : KBody.type (.sig s) = 2 := rfl
  have := (kType_ne secret).1
  unfold checkKeyPacket
  simp only [hq, hr.nonSig, h2, kType, sType, KBody.sigType]
  rw [if_neg (by simpa [kType] using this.symm)]
  rfl

theorem sig_step {secret : Bool} {before : List KBody} {s : Sig} {st : KState} (hr : KRel secret before st) (tr : Bool) (h28 : s.sigType ≠ 0x28)
    (htr : tr = st.seenTrust) (hs : st.stage = .sub → s.sigType = 0x18) : KRel secret (before ++ [.sig s]) ⟨st.stage, tr, true⟩ := by
  have h2 : KBody.type (.sig s) = 2 := rfl
  subst htr
  refine ⟨by simp, ?_, ⟨.sig s, ?_, ?_, ?_, ?_⟩, ?_, ?_, ?_, ?_⟩
  · rw [prevNonSig_snoc, if_pos (Or.inl h2)]; exact hr.nonSig
  · rw [prevPacket_snoc, if_neg (by rw [h2]; decide)]
  · simp [h2]
  · intro _; exact h28
  · intro h _; exact hs h
  · rw [allIn_snoc, hr.t1, h2]; simp
  · rw [allIn_snoc, hr.t2, h2]; simp
  · rw [allIn_snoc, hr.t3, h2]; simp
  · rw [allIn_snoc, hr.t4, h2]; simp

theorem trust_step {secret : Bool} {before : List KBody} {t : Trust} {st : KState} (hr : KRel secret before st) (ha : st.afterSig = true) :
    KRel secret (before ++ [.trust t]) ⟨st.stage, true, true⟩ := by
  have h2 : KBody.type (.trust t) = 12 := rfl
  obtain ⟨q, hq, q1, q2, q3⟩ := hr.prev
  have hk := (kType_ne secret).2.1
  refine ⟨by simp, ?_, ⟨q, ?_, ?_, q2, q3⟩, ?_, ?_, ?_, ?_⟩
  · rw [prevNonSig_snoc, if_pos (Or.inr h2)]; exact hr.nonSig
  · rw [prevPacket_snoc, if_pos h2, hq]
  · rw [q1, ha]
  · rw [allIn_snoc, hr.t1, h2]; simp [hk.symm]
  · rw [allIn_snoc, hr.t2, h2]; simp
  · rw [allIn_snoc, hr.t3, h2]; simp
  · rw [allIn_snoc, hr.t4, h2]; simp

theorem group_step {secret : Bool} {before : List KBody} {p : KBody} {st : KState} {stage : KStage} (hr : KRel secret before st)
    (hp : p.type = stageType secret stage) (hs : (stage = .uid ∧ (st.stage = .direct ∨ st.stage = .uid)) ∨ (stage = .attr ∧ st.stage ≠ .sub) ∨ stage = .sub) :
    KRel secret (before ++ [p]) ⟨stage, st.seenTrust, false⟩ := by
  have hk := kType_ne secret
  have hsub := sType_ne secret
  obtain ⟨stg, tr, a⟩ := st
  have hne2 : p.type ≠ 2 := by
    rw [hp]; rcases hs with ⟨rfl, _⟩ | ⟨rfl, _⟩ | rfl
    · simp [stageType]
    · simp [stageType]
    · exact hsub.1
  have hne12 : p.type ≠ 12 := by
    rw [hp]; rcases hs with ⟨rfl, _⟩ | ⟨rfl, _⟩ | rfl
    · simp [stageType]
    · simp [stageType]
    · exact hsub.2.1
  refine ⟨by simp, ?_, ⟨p, ?_, ?_, ?_, ?_⟩, ?_, ?_, ?_, ?_⟩
  · rw [prevNonSig_snoc, if_neg (by omega), hp]
  · rw [prevPacket_snoc, if_neg hne12]
  · simp [hne2]
  · intro h; exact absurd h hne2
  · intro _ h; exact absurd h hne2
  · rw [allIn_snoc, hr.t1, hp]
    rcases hs with ⟨rfl, h⟩ | ⟨rfl, h⟩ | rfl <;> simp [stageType, hk.2.2.1.symm, hk.2.2.2.1.symm, hsub.1, hsub.2.2.2.2]
  · rw [allIn_snoc, hr.t2, hp]
    rcases hs with ⟨rfl, h⟩ | ⟨rfl, h⟩ | rfl <;> simp [stageType, hk.2.2.1.symm, hk.2.2.2.1.symm, hsub.1, hsub.2.1, hsub.2.2.2.2]
  · rw [allIn_snoc, hr.t3, hp]
    rcases hs with ⟨rfl, h⟩ | ⟨rfl, h⟩ | rfl
    · simp only [stageType]; simp; exact h
    · simp [stageType, hk.2.2.2.1.symm]
    · simp [stageType, hsub.1, hsub.2.1, hsub.2.2.1, hsub.2.2.2.2]
  · rw [allIn_snoc, hr.t4, hp]
    rcases hs with ⟨rfl, h⟩ | ⟨rfl, h⟩ | rfl
    · simp only [stageType]; simp; rcases h with h | h <;> simp at h <;> simp [h]
    · simp only [stageType]; simp; exact h
    · simp [stageType, hsub.1, hsub.2.1, hsub.2.2.1, hsub.2.2.2.1, hsub.2.2.2.2]

theorem stageType_sub {secret : Bool} {stage : KStage} : stageType secret stage = sType secret ↔ stage = .sub := by
  cases stage <;> cases secret <;> simp [stageType, kType, sType]

theorem stageType_cert {secret : Bool} {stage : KStage} : stageType secret stage ∈ [13, 17, 12] ↔ stage = .uid ∨ stage = .attr := by
  cases stage <;> cases secret <;> simp [stageType, kType, sType]

/-- The check of a signature packet agrees with the automaton. -/
theorem sig_check {secret : Bool} {version : Nat} {before rest : List KBody} {s : Sig} {st : KState} (hr : KRel secret before st) :
    (checkKeyPacket secret version before (.sig s) rest = .ok () ∧
      ∃ st', kStep secret version st (.sig s) rest = some st' ∧ KRel secret (before ++ [.sig s]) st') ∨
    (∃ e, checkKeyPacket secret version before (.sig s) rest = .error e) ∧ kStep secret version st (.sig s) rest = none := by
  obtain ⟨q, hq, q1, q2, q3⟩ := hr.prev
  rw [checkKeyPacket_sig hr hq]
  unfold checkKeySig kStep
  have hob : ∀ types, (onlyBefore before types = .ok () ∧ allIn before types) ∨ ((∃ e, onlyBefore before types = .error e) ∧ ¬ allIn before types) := by
    intro types
    cases h : onlyBefore before types with
    | ok u => exact Or.inl ⟨rfl, onlyBefore_ok.mp h⟩
    | error e => exact Or.inr ⟨⟨e, rfl⟩, fun h' => by rw [onlyBefore_ok.mpr h'] at h; cases h⟩
  by_cases h1 : s.sigType = 0x1f
  · simp only [if_pos h1]
    rcases hob [kType secret, 2] with ⟨ho, ha⟩ | ⟨ho, ha⟩
    · have := hr.t1.mp ha
      rw [if_pos this]
      refine Or.inl ⟨ho, _, rfl, ?_⟩
      have := sig_step hr (s := s) false (by omega) this.2.symm (by rw [this.1]; intro h; cases h)
      rwa [(hr.t1.mp ha).1] at this
    · rw [if_neg (fun h => ha (hr.t1.mpr h))]
      exact Or.inr ⟨ho, rfl⟩
  · simp only [if_neg h1]
    by_cases h2 : s.sigType = 0x18
    · simp only [if_pos h2, if_neg (show s.sigType ≠ 0x20 by omega)]
      unfold checkBinding
      by_cases hs : st.stage = .sub
      · rw [if_neg (by rw [hs]; simp [stageType]), if_pos hs, if_neg (by rintro ⟨a, b⟩; exact b (q3 hs a))]
        refine Or.inl ⟨rfl, _, rfl, ?_⟩
        have := sig_step hr (s := s) st.seenTrust (by omega) rfl (fun _ => h2)
        rwa [hs] at this
      · rw [if_pos (fun h => hs (stageType_sub.mp h)), if_neg hs]
        exact Or.inr ⟨⟨_, rfl⟩, rfl⟩
    · simp only [if_neg h2]
      by_cases h3 : s.sigType = 0x20
      · simp only [if_pos h3]
        rcases hob [kType secret, 2, 12] with ⟨ho, ha⟩ | ⟨ho, ha⟩
        · have hd := hr.t2.mp ha
          rw [if_pos hd]
          refine Or.inl ⟨ho, _, rfl, ?_⟩
          have := sig_step hr (s := s) st.seenTrust (by omega) rfl (by rw [hd]; intro h; cases h)
          rwa [hd] at this
        · rw [if_neg (fun h => ha (hr.t2.mpr h))]
          exact Or.inr ⟨ho, rfl⟩
      · simp only [if_neg h3]
        by_cases h4 : s.sigType = 0x28
        · have hnc : s.sigType ∉ certTypes := by rw [h4]; decide
          rw [if_pos h4, if_neg hnc]
          refine Or.inr ⟨?_, rfl⟩
          rw [if_pos]
          · exact ⟨_, rfl⟩
          · by_cases hq2 : q.type = 2
            · exact Or.inr (q2 hq2)
            · exact Or.inl hq2
        · rw [if_neg h4]
          by_cases h5 : s.sigType = 0x10 ∨ s.sigType = 0x11 ∨ s.sigType = 0x12 ∨ s.sigType = 0x13 ∨ s.sigType = 0x30
          · have hct : s.sigType ∈ certTypes := by simpa [certTypes] using h5
            rw [if_pos h5, if_pos hct]
            by_cases hs : st.stage = .uid ∨ st.stage = .attr
            · rw [if_neg (not_not.mpr (stageType_cert.mpr hs)), if_pos hs]
              exact Or.inl ⟨rfl, _, rfl, sig_step hr (s := s) st.seenTrust h4 rfl (by rcases hs with h | h <;> rw [h] <;> intro h' <;> cases h')⟩
            · rw [if_pos (fun h => hs (stageType_cert.mp h)), if_neg hs]
              exact Or.inr ⟨⟨_, rfl⟩, rfl⟩
          · have hct : s.sigType ∉ certTypes := by simpa [certTypes] using h5
            rw [if_neg h5, if_neg hct]
            exact Or.inr ⟨⟨_, rfl⟩, rfl⟩

/-- The loop and the automaton agree. -/
theorem validateLoop_iff {secret : Bool} {version : Nat} : ∀ (rest before : List KBody) (st : KState), KRel secret before st →
    (validateLoop secret version before rest = .ok () ↔ kAccepts secret version st rest) := by
  intro rest
  induction rest with
  | nil => intro before st _; simp [validateLoop, kAccepts]
  | cons p rest ih =>
    intro before st hr
    have ok_step : ∀ st', checkKeyPacket secret version before p rest = .ok () → kStep secret version st p rest = some st' →
        KRel secret (before ++ [p]) st' → (validateLoop secret version before (p :: rest) = .ok () ↔ kAccepts secret version st (p :: rest)) := by
      intro st' h1 h2 h3
      unfold validateLoop kAccepts
      rw [h1, h2]
      exact ih _ _ h3
    have err_step : ∀ e, checkKeyPacket secret version before p rest = .error e → kStep secret version st p rest = none →
        (validateLoop secret version before (p :: rest) = .ok () ↔ kAccepts secret version st (p :: rest)) := by
      intro e h1 h2
      unfold validateLoop kAccepts
      rw [h1, h2]
      exact ⟨fun h => (by cases h), fun h => h.elim⟩
    have hk := kType_ne secret
    have hob : ∀ types, (onlyBefore before types = .ok () ∧ allIn before types) ∨ ((∃ e, onlyBefore before types = .error e) ∧ ¬ allIn before types) := by
      intro types
      cases h : onlyBefore before types with
      | ok u => exact Or.inl ⟨rfl, onlyBefore_ok.mp h⟩
      | error e => exact Or.inr ⟨⟨e, rfl⟩, fun h' => by rw [onlyBefore_ok.mpr h'] at h; cases h⟩
    cases p with
    | sig s =>
      rcases sig_check (version := version) (rest := rest) (s := s) hr with ⟨h, st', h2, h3⟩ | ⟨⟨e, h⟩, h2⟩
      · exact ok_step _ h h2 h3
      · exact err_step _ h h2
    | uid s =>
      have hc : checkKeyPacket secret version before (.uid s) rest = onlyBefore before [kType secret, 2, 13, 12] := by
        cases secret <;> rfl
      rcases hob [kType secret, 2, 13, 12] with ⟨ho, ha⟩ | ⟨⟨e, ho⟩, ha⟩
      · have hs := hr.t3.mp ha
        exact ok_step ⟨.uid, st.seenTrust, false⟩ (hc.trans ho) (by simp [kStep, hs]) (group_step hr rfl (Or.inl ⟨rfl, hs⟩))
      · exact err_step e (hc.trans ho) (by unfold kStep; exact if_neg (fun h => ha (hr.t3.mpr h)))
    | attr as =>
      have hc : checkKeyPacket secret version before (.attr as) rest = onlyBefore before [kType secret, 2, 13, 17, 12] := by
        cases secret <;> rfl
      rcases hob [kType secret, 2, 13, 17, 12] with ⟨ho, ha⟩ | ⟨⟨e, ho⟩, ha⟩
      · have hs := hr.t4.mp ha
        exact ok_step ⟨.attr, st.seenTrust, false⟩ (hc.trans ho) (by simp [kStep, hs]) (group_step hr rfl (Or.inr (Or.inl ⟨rfl, hs⟩)))
      · exact err_step e (hc.trans ho) (by unfold kStep; exact if_neg (fun h => ha (hr.t4.mpr h)))
    | trust t =>
      obtain ⟨q, hq, q1, q2, q3⟩ := hr.prev
      have hc : checkKeyPacket secret version before (.trust t) rest = if q.type ≠ 2 then .error (.pgp "InvalidKeyPacketOrder") else .ok () := by
        unfold checkKeyPacket
        rw [hq]
        cases secret <;> rfl
      by_cases ha : st.afterSig = true
      · exact ok_step ⟨st.stage, true, true⟩ (hc.trans (if_neg (not_not.mpr (q1.mpr ha)))) (by simp [kStep, ha]) (trust_step hr ha)
      · exact err_step _ (hc.trans (if_pos (fun h => ha (q1.mp h)))) (by simp [kStep, ha])
    | other t =>
      refine err_step (.pgp "InvalidKeyPacketType") ?_ rfl
      obtain ⟨t, ht⟩ := t
      simp only [List.mem_cons, List.not_mem_nil, or_false, not_or] at ht
      cases secret <;> simp [checkKeyPacket, KBody.type, ht]
    | key sec sub k priv =>
      cases sub with
      | false =>
        have hst : kStep secret version st (.key sec false k priv) rest = none := by simp [kStep]
        have hc : ∃ e, checkKeyPacket secret version before (.key sec false k priv) rest = .error e := by
          have := hr.nonempty
          cases sec <;> cases secret <;> simp [checkKeyPacket, KBody.type, this]
        obtain ⟨e, hc⟩ := hc
        exact err_step e hc hst
      | true =>
        have hc : checkKeyPacket secret version before (.key sec true k priv) rest = checkSubkey version rest := by
          cases sec <;> cases secret <;> rfl
        have hcs : (checkSubkey version rest = .ok () ∧ 4 ≤ version ∧ nextBinding rest = true) ∨
            ((∃ e, checkSubkey version rest = .error e) ∧ ¬ (4 ≤ version ∧ nextBinding rest = true)) := by
          unfold checkSubkey
          by_cases hv : version < 4
          · rw [if_pos hv]; exact Or.inr ⟨⟨_, rfl⟩, by omega⟩
          · rw [if_neg hv]
            cases rest with
            | nil => exact Or.inr ⟨⟨_, rfl⟩, by simp [nextBinding]⟩
            | cons n r =>
              by_cases hn : n.type ≠ 2 ∨ n.sigType ≠ 0x18
              · simp only [if_pos hn]
                refine Or.inr ⟨⟨_, rfl⟩, ?_⟩
                rintro ⟨_, h⟩
                simp only [nextBinding, Bool.and_eq_true, beq_iff_eq] at h
                rcases hn with hn | hn
                · exact hn h.1
                · exact hn h.2
              · simp only [if_neg hn]
                refine Or.inl ⟨trivial, by omega, ?_⟩
                simp only [nextBinding, Bool.and_eq_true, beq_iff_eq]
                omega
        rcases hcs with ⟨ho, hv, hn⟩ | ⟨⟨e, ho⟩, hnot⟩
        · by_cases hsec : sec = secret
          · subst hsec
            exact ok_step ⟨.sub, st.seenTrust, false⟩ (hc.trans ho) (by simp [kStep, hv, hn])
              (group_step hr (by cases sec <;> rfl) (Or.inr (Or.inr rfl)))
          · -- the binding signature that follows is refused
            have hst : kStep secret version st (.key sec true k priv) rest = none := by simp [kStep, hsec]
            unfold validateLoop kAccepts
            rw [hc, ho, hst]
            refine ⟨fun h => ?_, fun h => h.elim⟩
            cases rest with
            | nil => cases hn
            | cons n r =>
              simp only [nextBinding, Bool.and_eq_true, beq_iff_eq] at hn
              have hn2 : ∃ s, n = .sig s := by
                cases n with
                | sig s => exact ⟨s, rfl⟩
                | key a b c d => cases a <;> cases b <;> simp [KBody.type] at hn
                | uid s => simp [KBody.type] at hn
                | attr s => simp [KBody.type] at hn
                | trust s => simp [KBody.type] at hn
                | other t =>
                  have := t.2
                  simp only [KBody.type] at hn
                  rw [hn.1] at this
                  exact absurd (by decide) this
              obtain ⟨s, rfl⟩ := hn2
              have h18 : s.sigType = 0x18 := hn.2
              have he : checkKeyPacket secret version (before ++ [.key sec true k priv]) (.sig s) r = .error (.pgp "InvalidKeyPacketOrder") := by
                cases sec <;> cases secret <;>
                  first
                  | exact absurd rfl hsec
                  | simp [checkKeyPacket, prevPacket_snoc, prevNonSig_snoc, KBody.type, KBody.sigType, h18, checkKeySig, checkBinding]
              simp only [except_bind_ok] at h
              unfold validateLoop at h
              rw [he] at h
              cases h
        · refine err_step e (hc.trans ho) ?_
          simp only [kStep]
          exact if_neg (fun h => hnot ⟨h.2.2.1, h.2.2.2⟩)

end Pgp
