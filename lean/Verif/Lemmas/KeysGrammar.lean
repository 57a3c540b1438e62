import Verif.Lemmas.Keys
/-
The language of the automaton is the grammar of transferable keys.
-/
namespace Pgp
open Spec

theorem SigRun_nil {types : List Nat} {a : Bool} : SigRun types a [] := ⟨fun _ h => absurd h List.not_mem_nil, fun _ _ _ h => by cases h⟩

theorem SigRun_sig {types : List Nat} {a : Bool} {s : Sig} {l : List KBody} (hs : s.sigType ∈ types) (hl : SigRun types true l) : SigRun types a (.sig s :: l) := by
  refine ⟨fun p hp => ?_, fun _ p t h => ?_⟩
  · rcases List.mem_cons.mp hp with rfl | hp
    · exact Or.inl hs
    · exact hl.1 p hp
  · cases h; exact fun h => h

theorem SigRun_trust {types : List Nat} {t : Trust} {l : List KBody} (hl : SigRun types true l) : SigRun types true (.trust t :: l) := by
  refine ⟨fun p hp => ?_, fun h => by cases h⟩
  rcases List.mem_cons.mp hp with rfl | hp
  · exact Or.inr trivial
  · exact hl.1 p hp

/-- The first packet of a run, and the rest of it. -/
theorem SigRun_cons {types : List Nat} {a : Bool} {p : KBody} {l : List KBody} (h : SigRun types a (p :: l)) :
    ((∃ s, p = .sig s ∧ s.sigType ∈ types) ∨ (a = true ∧ ∃ t, p = .trust t)) ∧ SigRun types true l := by
  refine ⟨?_, fun q hq => h.1 q (List.mem_cons_of_mem _ hq), fun h => by cases h⟩
  rcases h.1 p List.mem_cons_self with h1 | h1
  · cases p <;> simp only [SigOf] at h1
    exact Or.inl ⟨_, rfl, h1⟩
  · cases p <;> simp only [IsTrust] at h1
    refine Or.inr ⟨?_, _, rfl⟩
    cases a with
    | true => rfl
    | false => exact absurd trivial (h.2 rfl _ _ rfl)

theorem DirectRun_nil {tr a : Bool} : DirectRun tr a [] := ⟨SigRun_nil, fun x p b h => by simp at h⟩

theorem DirectRun_direct {a : Bool} {s : Sig} {l : List KBody} (hs : s.sigType = 0x1f) (hl : DirectRun false true l) : DirectRun false a (.sig s :: l) := by
  refine ⟨SigRun_sig (by rw [hs]; decide) hl.1, fun x p b h hp => ⟨rfl, ?_⟩⟩
  cases x with
  | nil => exact fun q hq => absurd hq List.not_mem_nil
  | cons y x =>
    simp only [List.cons_append, List.cons.injEq] at h
    intro q hq
    rcases List.mem_cons.mp hq with rfl | hq
    · rw [← h.1]; exact fun h => h
    · exact (hl.2 x p b h.2 hp).2 q hq

theorem DirectRun_revoke {tr a : Bool} {s : Sig} {l : List KBody} (hs : s.sigType = 0x20) (hl : DirectRun tr true l) : DirectRun tr a (.sig s :: l) := by
  refine ⟨SigRun_sig (by rw [hs]; decide) hl.1, fun x p b h hp => ?_⟩
  cases x with
  | nil =>
    simp only [List.nil_append, List.cons.injEq] at h
    rw [← h.1] at hp
    simp only [SigOf, hs] at hp
    exact absurd hp (by decide)
  | cons y x =>
    simp only [List.cons_append, List.cons.injEq] at h
    refine ⟨(hl.2 x p b h.2 hp).1, fun q hq => ?_⟩
    rcases List.mem_cons.mp hq with rfl | hq
    · rw [← h.1]; exact fun h => h
    · exact (hl.2 x p b h.2 hp).2 q hq

theorem DirectRun_trust {tr : Bool} {t : Trust} {l : List KBody} (hl : DirectRun true true l) : DirectRun tr true (.trust t :: l) := by
  refine ⟨SigRun_trust hl.1, fun x p b h hp => ?_⟩
  cases x with
  | nil =>
    simp only [List.nil_append, List.cons.injEq] at h
    rw [← h.1] at hp
    exact hp.elim
  | cons y x =>
    simp only [List.cons_append, List.cons.injEq] at h
    exact absurd (hl.2 x p b h.2 hp).1 (by decide)

theorem DirectRun_cons {tr a : Bool} {p : KBody} {l : List KBody} (h : DirectRun tr a (p :: l)) :
    ((∃ s, p = .sig s ∧ s.sigType = 0x1f ∧ tr = false) ∧ DirectRun tr true l) ∨ ((∃ s, p = .sig s ∧ s.sigType = 0x20) ∧ DirectRun tr true l) ∨
    ((a = true ∧ ∃ t, p = .trust t) ∧ DirectRun true true l) := by
  obtain ⟨h1, h2⟩ := SigRun_cons h.1
  rcases h1 with ⟨s, rfl, hs⟩ | ⟨ha, t, rfl⟩
  · have hl : DirectRun tr true l := by
      refine ⟨h2, fun x p b hx hp => ?_⟩
      obtain ⟨h3, h4⟩ := h.2 (.sig s :: x) p b (by rw [hx]; rfl) hp
      exact ⟨h3, fun q hq => h4 q (List.mem_cons_of_mem _ hq)⟩
    simp only [List.mem_cons, List.not_mem_nil, or_false] at hs
    rcases hs with hs | hs
    · exact Or.inl ⟨⟨s, rfl, hs, (h.2 [] (.sig s) l rfl (by simp [SigOf, hs])).1⟩, hl⟩
    · exact Or.inr (Or.inl ⟨⟨s, rfl, hs⟩, hl⟩)
  · refine Or.inr (Or.inr ⟨⟨ha, t, rfl⟩, h2, fun x p b hx hp => ?_⟩)
    obtain ⟨h3, h4⟩ := h.2 (.trust t :: x) p b (by rw [hx]; rfl) hp
    exact absurd trivial (h4 (.trust t) List.mem_cons_self)

/-! ### From the grammar to the automaton -/

theorem kAccepts_cons {secret : Bool} {version : Nat} {st st' : KState} {p : KBody} {rest : List KBody}
    (h : kStep secret version st p rest = some st') : kAccepts secret version st (p :: rest) ↔ kAccepts secret version st' rest := by
  simp only [kAccepts, h]

theorem cert_run {secret : Bool} {version : Nat} {stage : KStage} (hst : stage = .uid ∨ stage = .attr) {rest : List KBody}
    (hrest : ∀ tr a, kAccepts secret version ⟨stage, tr, a⟩ rest) : ∀ (body : List KBody) (tr a : Bool), SigRun certTypes a body →
    kAccepts secret version ⟨stage, tr, a⟩ (body ++ rest) := by
  intro body
  induction body with
  | nil => intro tr a _; exact hrest tr a
  | cons p body ih =>
    intro tr a h
    obtain ⟨h1, h2⟩ := SigRun_cons h
    rcases h1 with ⟨s, rfl, hs⟩ | ⟨ha, t, rfl⟩
    · have hne : s.sigType ≠ 0x1f ∧ s.sigType ≠ 0x20 ∧ s.sigType ≠ 0x18 := by
        simp only [certTypes, List.mem_cons, List.not_mem_nil, or_false] at hs; omega
      rw [List.cons_append, kAccepts_cons (st' := ⟨stage, tr, true⟩)]
      · exact ih tr true h2
      · simp only [kStep, if_neg hne.1, if_neg hne.2.1, if_neg hne.2.2, if_pos hs, if_pos hst]
    · subst ha
      rw [List.cons_append, kAccepts_cons (st' := ⟨stage, true, true⟩)]
      · exact ih true true h2
      · simp only [kStep, if_true]

theorem bind_run {secret : Bool} {version : Nat} {rest : List KBody}
    (hrest : ∀ tr a, kAccepts secret version ⟨.sub, tr, a⟩ rest) : ∀ (body : List KBody) (tr a : Bool), SigRun [0x18] a body →
    kAccepts secret version ⟨.sub, tr, a⟩ (body ++ rest) := by
  intro body
  induction body with
  | nil => intro tr a _; exact hrest tr a
  | cons p body ih =>
    intro tr a h
    obtain ⟨h1, h2⟩ := SigRun_cons h
    rcases h1 with ⟨s, rfl, hs⟩ | ⟨ha, t, rfl⟩
    · have hs' : s.sigType = 0x18 := by simpa using hs
      rw [List.cons_append, kAccepts_cons (st' := ⟨.sub, tr, true⟩)]
      · exact ih tr true h2
      · simp [kStep, hs']
    · subst ha
      rw [List.cons_append, kAccepts_cons (st' := ⟨.sub, true, true⟩)]
      · exact ih true true h2
      · simp only [kStep, if_true]

theorem direct_run {secret : Bool} {version : Nat} {rest : List KBody}
    (hrest : ∀ tr a, kAccepts secret version ⟨.direct, tr, a⟩ rest) : ∀ (body : List KBody) (tr a : Bool), DirectRun tr a body →
    kAccepts secret version ⟨.direct, tr, a⟩ (body ++ rest) := by
  intro body
  induction body with
  | nil => intro tr a _; exact hrest tr a
  | cons p body ih =>
    intro tr a h
    rcases DirectRun_cons h with ⟨⟨s, rfl, hs, rfl⟩, h2⟩ | ⟨⟨s, rfl, hs⟩, h2⟩ | ⟨⟨ha, t, rfl⟩, h2⟩
    · rw [List.cons_append, kAccepts_cons (st' := ⟨.direct, false, true⟩)]
      · exact ih false true h2
      · simp [kStep, hs]
    · rw [List.cons_append, kAccepts_cons (st' := ⟨.direct, tr, true⟩)]
      · exact ih tr true h2
      · simp [kStep, hs]
    · subst ha
      rw [List.cons_append, kAccepts_cons (st' := ⟨.direct, true, true⟩)]
      · exact ih true true h2
      · simp only [kStep, if_true]

theorem subs_accept {secret : Bool} {version : Nat} (hv : 4 ≤ version) : ∀ (gs : List (List KBody)), (∀ g ∈ gs, SubGroup secret g) → ∀ st,
    kAccepts secret version st gs.flatten := by
  intro gs
  induction gs with
  | nil => intro _ st; exact trivial
  | cons g gs ih =>
    intro hg st
    obtain ⟨k, priv, body, rfl, hne, hb⟩ := hg g List.mem_cons_self
    have hrest := ih (fun g h => hg g (List.mem_cons_of_mem _ h))
    rw [List.flatten_cons, List.cons_append, kAccepts_cons (st' := ⟨.sub, st.seenTrust, false⟩)]
    · exact bind_run (fun tr a => hrest _) _ _ _ hb
    · have hn : nextBinding (body ++ gs.flatten) = true := by
        cases body with
        | nil => exact absurd rfl hne
        | cons p body =>
          rcases (SigRun_cons hb).1 with ⟨s, rfl, hs⟩ | ⟨ha, _⟩
          · have hs' : s.sigType = 0x18 := by simpa using hs
            simp [nextBinding, KBody.type, KBody.sigType, hs']
          · cases ha
      simp [kStep, hv, hn]

theorem attrs_accept {secret : Bool} {version : Nat} {rest : List KBody} (hrest : ∀ st, kAccepts secret version st rest) :
    ∀ (gs : List (List KBody)), (∀ g ∈ gs, AttrGroup g) → ∀ st : KState, st.stage ≠ .sub → kAccepts secret version st (gs.flatten ++ rest) := by
  intro gs
  induction gs with
  | nil => intro _ st _; exact hrest st
  | cons g gs ih =>
    intro hg st hst
    obtain ⟨as, body, rfl, hb⟩ := hg g List.mem_cons_self
    have hr := ih (fun g h => hg g (List.mem_cons_of_mem _ h))
    rw [List.flatten_cons, List.cons_append, List.cons_append, List.append_assoc, kAccepts_cons (st' := ⟨.attr, st.seenTrust, false⟩)]
    · exact cert_run (Or.inr rfl) (fun tr a => hr _ (by simp)) _ _ _ hb
    · simp [kStep, hst]

theorem uids_accept {secret : Bool} {version : Nat} {rest : List KBody} (hrest : ∀ st : KState, st.stage ≠ .sub → kAccepts secret version st rest) :
    ∀ (gs : List (List KBody)), (∀ g ∈ gs, UidGroup g) → ∀ st : KState, st.stage = .direct ∨ st.stage = .uid → kAccepts secret version st (gs.flatten ++ rest) := by
  intro gs
  induction gs with
  | nil => intro _ st h; exact hrest st (by rcases h with h | h <;> rw [h] <;> simp)
  | cons g gs ih =>
    intro hg st hst
    obtain ⟨s, body, rfl, hb⟩ := hg g List.mem_cons_self
    have hr := ih (fun g h => hg g (List.mem_cons_of_mem _ h))
    rw [List.flatten_cons, List.cons_append, List.cons_append, List.append_assoc, kAccepts_cons (st' := ⟨.uid, st.seenTrust, false⟩)]
    · exact cert_run (Or.inl rfl) (fun tr a => hr _ (Or.inr rfl)) _ _ _ hb
    · simp [kStep, hst]

theorem accepts_of_grammar {secret : Bool} {version : Nat} {direct uids attrs subs : List KBody} {tr a : Bool} (hd : DirectRun tr a direct)
    (hu : Groups UidGroup uids) (ha : Groups AttrGroup attrs) (hs : Subkeys secret version subs) :
    kAccepts secret version ⟨.direct, tr, a⟩ (direct ++ uids ++ attrs ++ subs) := by
  obtain ⟨gu, rfl, hu⟩ := hu
  obtain ⟨ga, rfl, ha⟩ := ha
  obtain ⟨⟨gs, rfl, hs⟩, hv⟩ := hs
  have h1 : ∀ st, kAccepts secret version st gs.flatten := by
    by_cases h : version < 4
    · rw [hv h]; intro st; exact trivial
    · exact subs_accept (by omega) gs hs
  rw [List.append_assoc, List.append_assoc]
  exact direct_run (fun tr a => uids_accept (fun st hst => attrs_accept h1 ga ha st hst) gu hu _ (Or.inl rfl)) _ _ _ hd

/-! ### From the automaton to the grammar -/

theorem Groups_nil {G : List KBody → Prop} : Groups G [] := ⟨[], rfl, fun _ h => absurd h List.not_mem_nil⟩

theorem Groups_cons {G : List KBody → Prop} {g l : List KBody} (hg : G g) (hl : Groups G l) : Groups G (g ++ l) := by
  obtain ⟨gs, rfl, hgs⟩ := hl
  refine ⟨g :: gs, rfl, fun x hx => ?_⟩
  rcases List.mem_cons.mp hx with rfl | hx
  · exact hg
  · exact hgs x hx

/-- What is left in each stage. -/
def KLang (secret : Bool) (version : Nat) (st : KState) (rest : List KBody) : Prop :=
  match st.stage with
  | .direct => ∃ d u a s, rest = d ++ u ++ a ++ s ∧ DirectRun st.seenTrust st.afterSig d ∧ Groups UidGroup u ∧ Groups AttrGroup a ∧ Subkeys secret version s
  | .uid => ∃ b u a s, rest = b ++ u ++ a ++ s ∧ SigRun certTypes st.afterSig b ∧ Groups UidGroup u ∧ Groups AttrGroup a ∧ Subkeys secret version s
  | .attr => ∃ b a s, rest = b ++ a ++ s ∧ SigRun certTypes st.afterSig b ∧ Groups AttrGroup a ∧ Subkeys secret version s
  | .sub => ∃ b s, rest = b ++ s ∧ SigRun [0x18] st.afterSig b ∧ Subkeys secret version s

theorem grammar_of_accepts {secret : Bool} {version : Nat} : ∀ (rest : List KBody) (st : KState), kAccepts secret version st rest →
    KLang secret version st rest := by
  intro rest
  induction rest with
  | nil =>
    intro st _
    have hs : Subkeys secret version [] := ⟨Groups_nil, fun _ => rfl⟩
    obtain ⟨stage, tr, a⟩ := st
    cases stage
    · exact ⟨[], [], [], [], rfl, DirectRun_nil, Groups_nil, Groups_nil, hs⟩
    · exact ⟨[], [], [], [], rfl, SigRun_nil, Groups_nil, Groups_nil, hs⟩
    · exact ⟨[], [], [], rfl, SigRun_nil, Groups_nil, hs⟩
    · exact ⟨[], [], rfl, SigRun_nil, hs⟩
  | cons p rest ih =>
    intro st h
    obtain ⟨stage, tr, aft⟩ := st
    unfold kAccepts at h
    cases hk : kStep secret version ⟨stage, tr, aft⟩ p rest with
    | none => rw [hk] at h; exact h.elim
    | some st' =>
      rw [hk] at h
      have hl := ih st' h
      cases p with
      | other t => simp [kStep] at hk
      | trust t =>
        simp only [kStep] at hk
        split at hk
        · rename_i ha
          cases hk
          subst ha
          cases stage
          · obtain ⟨d, u, a, s, rfl, h1, h2, h3, h4⟩ := hl
            exact ⟨_ :: d, u, a, s, rfl, DirectRun_trust h1, h2, h3, h4⟩
          · obtain ⟨d, u, a, s, rfl, h1, h2, h3, h4⟩ := hl
            exact ⟨_ :: d, u, a, s, rfl, SigRun_trust h1, h2, h3, h4⟩
          · obtain ⟨d, a, s, rfl, h1, h3, h4⟩ := hl
            exact ⟨_ :: d, a, s, rfl, SigRun_trust h1, h3, h4⟩
          · obtain ⟨d, s, rfl, h1, h4⟩ := hl
            exact ⟨_ :: d, s, rfl, SigRun_trust h1, h4⟩
        · cases hk
      | sig sg =>
        simp only [kStep] at hk
        split at hk
        · rename_i ht
          split at hk
          · rename_i hc
            cases hk
            obtain ⟨rfl, rfl⟩ := hc
            obtain ⟨d, u, a, s, rfl, h1, h2, h3, h4⟩ := hl
            exact ⟨_ :: d, u, a, s, rfl, DirectRun_direct ht h1, h2, h3, h4⟩
          · cases hk
        · split at hk
          · rename_i ht
            split at hk
            · rename_i hc
              cases hk
              subst hc
              obtain ⟨d, u, a, s, rfl, h1, h2, h3, h4⟩ := hl
              exact ⟨_ :: d, u, a, s, rfl, DirectRun_revoke ht h1, h2, h3, h4⟩
            · cases hk
          · split at hk
            · rename_i ht
              split at hk
              · rename_i hc
                cases hk
                subst hc
                obtain ⟨d, s, rfl, h1, h4⟩ := hl
                exact ⟨_ :: d, s, rfl, SigRun_sig (by rw [ht]; decide) h1, h4⟩
              · cases hk
            · split at hk
              · rename_i ht
                split at hk
                · rename_i hc
                  cases hk
                  rcases hc with rfl | rfl
                  · obtain ⟨d, u, a, s, rfl, h1, h2, h3, h4⟩ := hl
                    exact ⟨_ :: d, u, a, s, rfl, SigRun_sig ht h1, h2, h3, h4⟩
                  · obtain ⟨d, a, s, rfl, h1, h3, h4⟩ := hl
                    exact ⟨_ :: d, a, s, rfl, SigRun_sig ht h1, h3, h4⟩
                · cases hk
              · cases hk
      | uid x =>
        simp only [kStep] at hk
        split at hk
        · rename_i hc
          cases hk
          obtain ⟨b, u, a, s, rfl, h1, h2, h3, h4⟩ := hl
          have hg : Groups UidGroup (.uid x :: b ++ u) := Groups_cons ⟨x, b, rfl, h1⟩ h2
          have he : KBody.uid x :: (b ++ u ++ a ++ s) = [] ++ (.uid x :: b ++ u) ++ a ++ s := by simp
          rcases hc with rfl | rfl
          · exact ⟨[], _, a, s, he, DirectRun_nil, hg, h3, h4⟩
          · exact ⟨[], _, a, s, he, SigRun_nil, hg, h3, h4⟩
        · cases hk
      | attr x =>
        simp only [kStep] at hk
        split at hk
        · rename_i hc
          cases hk
          obtain ⟨b, a, s, rfl, h1, h3, h4⟩ := hl
          have hg : Groups AttrGroup (.attr x :: b ++ a) := Groups_cons ⟨x, b, rfl, h1⟩ h3
          cases stage
          · exact ⟨[], [], _, s, by simp, DirectRun_nil, Groups_nil, hg, h4⟩
          · exact ⟨[], [], _, s, by simp, SigRun_nil, Groups_nil, hg, h4⟩
          · exact ⟨[], _, s, by simp, SigRun_nil, hg, h4⟩
          · exact absurd rfl hc
        · cases hk
      | key sec sub k priv =>
        simp only [kStep] at hk
        split at hk
        · rename_i hc
          obtain ⟨rfl, rfl, hv, hn⟩ := hc
          cases hk
          obtain ⟨b, s, rfl, h1, h4⟩ := hl
          have hne : b ≠ [] := by
            rintro rfl
            obtain ⟨⟨gs, rfl, hgs⟩, _⟩ := h4
            cases gs with
            | nil => simp [nextBinding] at hn
            | cons g gs =>
              obtain ⟨k, priv, body, rfl, _⟩ := hgs g List.mem_cons_self
              cases sec <;> simp [nextBinding, KBody.type] at hn
          have hg : Subkeys sec version (.key sec true k priv :: b ++ s) :=
            ⟨Groups_cons ⟨k, priv, b, rfl, hne, h1⟩ h4.1, fun h => by omega⟩
          cases stage
          · exact ⟨[], [], [], _, by simp, DirectRun_nil, Groups_nil, Groups_nil, hg⟩
          · exact ⟨[], [], [], _, by simp, SigRun_nil, Groups_nil, Groups_nil, hg⟩
          · exact ⟨[], [], _, by simp, SigRun_nil, Groups_nil, hg⟩
          · exact ⟨[], _, by simp, SigRun_nil, hg⟩
        · cases hk

/-! ### The start -/

theorem krel_start {secret : Bool} {k : PubKey} {priv : Option SecPart} : KRel secret [.key secret false k priv] ⟨.direct, false, false⟩ := by
  cases secret
  all_goals
    refine ⟨by simp, rfl, ⟨_, rfl, by simp [KBody.type], by simp [KBody.type], by simp⟩, ?_, ?_, ?_, ?_⟩ <;>
      simp [allIn, KBody.type, kType]

theorem type_key {secret : Bool} {p : KBody} (h : p.type = if secret then 5 else 6) : ∃ k priv, p = .key secret false k priv := by
  cases p with
  | key a b k priv =>
    cases a <;> cases b <;> cases secret <;> simp [KBody.type] at h <;> exact ⟨k, priv, rfl⟩
  | sig s => cases secret <;> simp [KBody.type] at h
  | uid s => cases secret <;> simp [KBody.type] at h
  | attr s => cases secret <;> simp [KBody.type] at h
  | trust s => cases secret <;> simp [KBody.type] at h
  | other t =>
    have := t.2
    simp only [KBody.type] at h
    rw [h] at this
    cases secret <;> exact absurd (by decide) this

theorem validateKey_iff (secret : Bool) (ps : List KBody) : validateKey secret ps = .ok () ↔ KeySequence secret ps := by
  cases ps with
  | nil =>
    simp only [validateKey, KeySequence]
    refine ⟨fun h => (by cases h), fun h => ?_⟩
    obtain ⟨_, _, _, _, _, _, h, _⟩ := h
    cases h
  | cons p rest =>
    by_cases hp : p.type = if secret then 5 else 6
    · obtain ⟨k, priv, rfl⟩ := type_key hp
      have hc : checkKeyPacket secret k.version [] (.key secret false k priv) rest = .ok () := by
        cases secret <;> rfl
      have h1 : validateKey secret (.key secret false k priv :: rest) = validateLoop secret k.version [.key secret false k priv] rest := by
        unfold validateKey
        simp only [if_neg (not_not.mpr hp), KBody.version]
        rw [validateLoop, hc]
        rfl
      rw [h1, validateLoop_iff rest _ _ krel_start]
      constructor
      · intro h
        obtain ⟨d, u, a, s, rfl, h1, h2, h3, h4⟩ := grammar_of_accepts rest _ h
        exact ⟨k, priv, d, u, a, s, rfl, h1, h2, h3, h4⟩
      · rintro ⟨k', priv', d, u, a, s, he, g1, g2, g3, g4⟩
        cases he
        exact accepts_of_grammar g1 g2 g3 g4
    · have : validateKey secret (p :: rest) = .error (.pgp "InvalidKeyPacketOrder") := by
        unfold validateKey
        simp only [if_pos hp]
      rw [this]
      refine ⟨fun h => (by cases h), fun h => ?_⟩
      obtain ⟨k, priv, _, _, _, _, h, _⟩ := h
      cases h
      exact absurd (by cases secret <;> rfl) hp

end Pgp
