import Verif.Spec.Message
import Verif.Lemmas.Utils
/-
Lemmas on recognising messages.
-/
namespace Pgp
open Spec

theorem sessKeyOf_iff {p : MPacket} {k : SessKey} : sessKeyOf p = some k ↔ KeyOf p k := by
  constructor
  · intro h
    obtain ⟨f, b⟩ := p
    cases b <;> simp only [sessKeyOf, Option.some.injEq, reduceCtorEq] at h <;> subst h <;> constructor
  · intro h; cases h <;> rfl

theorem encryptedMessage_eq_ok {keys : List SessKey} {b : MBody} {m : Msg} :
    encryptedMessage keys b = .ok m ↔ ∃ p, b = .seipd p ∧ m = .encrypted keys true (some p.version) (some p.data) := by
  cases b <;> simp [encryptedMessage, eq_comm]

theorem encryptedLoop_eq_ok {m : Msg} : ∀ {rest : List MPacket} {packet : MPacket} {keys : List SessKey},
    encryptedLoop keys packet rest = .ok m ↔
      ∃ esks ks f p rest', packet :: rest = esks ++ ⟨f, .seipd p⟩ :: rest' ∧ List.Forall₂ KeyOf esks ks ∧
        m = .encrypted (keys ++ ks) true (some p.version) (some p.data) := by
  intro rest
  induction rest with
  | nil =>
    intro packet keys
    unfold encryptedLoop
    constructor
    · intro h
      obtain ⟨f, b⟩ := packet
      split at h
      · next k hk =>
        obtain ⟨p, rfl, _⟩ := encryptedMessage_eq_ok.mp h
        simp [sessKeyOf] at hk
      · obtain ⟨p, rfl, hm⟩ := encryptedMessage_eq_ok.mp h
        exact ⟨[], [], f, p, [], rfl, .nil, by simpa using hm⟩
    · rintro ⟨esks, ks, f, p, rest', h, hk, rfl⟩
      cases esks with
      | nil =>
        cases hk
        simp only [List.nil_append, List.cons.injEq] at h
        obtain ⟨rfl, rfl⟩ := h
        simp [sessKeyOf, encryptedMessage]
      | cons e es => simp at h
  | cons next rest ih =>
    intro packet keys
    unfold encryptedLoop
    constructor
    · intro h
      split at h
      · next k hk =>
        obtain ⟨esks, ks, f, p, rest', h1, h2, rfl⟩ := ih.mp h
        exact ⟨packet :: esks, k :: ks, f, p, rest', by rw [h1]; rfl, .cons (sessKeyOf_iff.mp hk) h2, by simp⟩
      · obtain ⟨p, hp, hm⟩ := encryptedMessage_eq_ok.mp h
        obtain ⟨f, b⟩ := packet
        obtain rfl : b = .seipd p := hp
        exact ⟨[], [], f, p, next :: rest, rfl, .nil, by simpa using hm⟩
    · rintro ⟨esks, ks, f, p, rest', h, hk, rfl⟩
      cases hk with
      | nil =>
        simp only [List.nil_append, List.cons.injEq] at h
        obtain ⟨rfl, rfl⟩ := h
        simp [sessKeyOf, encryptedMessage]
      | @cons e k es ks hek hes =>
        simp only [List.cons_append, List.cons.injEq] at h
        obtain ⟨rfl, h⟩ := h
        rw [sessKeyOf_iff.mpr hek]
        exact ih.mpr ⟨es, ks, f, p, rest', h, hes, by simp⟩

theorem keyOf_type {p : MPacket} {k : SessKey} (h : KeyOf p k) : p.body.type = 1 ∨ p.body.type = 3 := by
  cases h <;> simp [MBody.type]

/-- What the encrypted branch accepts. -/
theorem encryptedFromPackets_eq_ok {packet : MPacket} {rest : List MPacket} {m : Msg} :
    encryptedFromPackets packet rest = .ok m ↔
      (∃ esks ks f p rest', packet :: rest = esks ++ ⟨f, .seipd p⟩ :: rest' ∧ List.Forall₂ KeyOf esks ks ∧ ks ≠ [] ∧
        m = .encrypted ks true (some p.version) (some p.data)) ∨
      (∃ f p, packet = ⟨f, .seipd p⟩ ∧ m = .encrypted [.default] true (some p.version) (some p.data)) := by
  unfold encryptedFromPackets
  split
  · next ht =>
    rw [encryptedLoop_eq_ok]
    constructor
    · rintro ⟨esks, ks, f, p, rest', h, hk, rfl⟩
      cases hk with
      | nil =>
        simp only [List.nil_append, List.cons.injEq] at h
        exact .inr ⟨f, p, h.1, rfl⟩
      | cons hek hes =>
        simp only [List.cons_append, List.cons.injEq] at h
        obtain ⟨rfl, h⟩ := h
        have := keyOf_type hek
        omega
    · rintro (⟨esks, ks, f, p, rest', h, hk, hne, rfl⟩ | ⟨f, p, rfl, rfl⟩)
      · cases hk with
        | nil => exact absurd rfl hne
        | cons hek hes =>
          simp only [List.cons_append, List.cons.injEq] at h
          obtain ⟨rfl, h⟩ := h
          have := keyOf_type hek
          omega
      · exact ⟨[], [], f, p, rest, rfl, .nil, rfl⟩
  · next ht =>
    rw [encryptedLoop_eq_ok]
    constructor
    · rintro ⟨esks, ks, f, p, rest', h, hk, rfl⟩
      refine .inl ⟨esks, ks, f, p, rest', h, hk, ?_, rfl⟩
      rintro rfl
      cases hk
      simp only [List.nil_append, List.cons.injEq] at h
      rw [h.1] at ht
      simp [MBody.type] at ht
    · rintro (⟨esks, ks, f, p, rest', h, hk, hne, rfl⟩ | ⟨f, p, rfl, rfl⟩)
      · exact ⟨esks, ks, f, p, rest', h, hk, rfl⟩
      · simp [MBody.type] at ht

theorem literalMessage_eq_ok {l : Literal} {m : Msg} : literalMessage l = .ok m ↔
    ∃ t, l.time = .int t ∧ m = .literal (l.dataFormat = 0x75 ∨ l.dataFormat = 0x74) l.data l.filename t := by
  unfold literalMessage
  cases l.time <;> simp [eq_comm]

/-- The signatures after the message. -/
theorem signedLoop_some {m : Msg} {r : Msg} : ∀ {ps : List MPacket} {op : Bool} {sigs : List (HeaderFormat × Sig)},
    signedLoop op sigs (some m) ps = .ok r ↔
      ∃ ss, SigTail ps ss ∧ r = .signed (sigs ++ ss) (some m) (op || ps.any fun p => p.body.type == 4) := by
  intro ps
  induction ps with
  | nil =>
    intro op sigs
    unfold signedLoop
    constructor
    · intro h; cases h; exact ⟨[], .nil, by simp⟩
    · rintro ⟨ss, hs, rfl⟩; cases hs; simp
  | cons p ps ih =>
    intro op sigs
    obtain ⟨f, b⟩ := p
    cases b with
    | onePass o =>
      simp only [signedLoop, ih, MBody.type]
      constructor
      · rintro ⟨ss, hs, rfl⟩; exact ⟨ss, .ops ⟨o, rfl⟩ hs, by simp [MBody.type]⟩
      · rintro ⟨ss, hs, rfl⟩
        cases hs with
        | ops _ hs => exact ⟨ss, hs, by simp [MBody.type]⟩
    | sig s =>
      simp only [signedLoop, ih]
      constructor
      · rintro ⟨ss, hs, rfl⟩; exact ⟨(f, s) :: ss, .sig hs, by simp [MBody.type]⟩
      · rintro ⟨ss, hs, rfl⟩
        cases hs with
        | ops h _ => obtain ⟨o, h⟩ := h; cases h
        | @sig _ _ _ ss hs => exact ⟨ss, hs, by simp [MBody.type]⟩
    | _ =>
      simp only [signedLoop, reduceCtorEq, false_iff]
      rintro ⟨ss, hs, -⟩
      cases hs with
      | ops h _ => obtain ⟨o, h⟩ := h; cases h

theorem signedLoop_none {r : Msg} : ∀ {ps : List MPacket},
    signedLoop true [] none ps = .ok r ↔
      ((∀ p ∈ ps, IsOps p) ∧ r = .signed [] none true) ∨
      ∃ pre p post m ss, ps = pre ++ p :: post ∧ (∀ p ∈ pre, IsOps p) ∧ ¬ IsOps p ∧ openSingle p = .ok m ∧ SigTail post ss ∧
        r = .signed ss (some m) true := by
  intro ps
  induction ps with
  | nil => simp [signedLoop, eq_comm]
  | cons p ps ih =>
    obtain ⟨f, b⟩ := p
    have other : ¬ IsOps ⟨f, b⟩ → ((do let m ← openSingle ⟨f, b⟩; signedLoop true [] (some m) ps) = .ok r ↔
        ((∀ p ∈ (⟨f, b⟩ : MPacket) :: ps, IsOps p) ∧ r = .signed [] none true) ∨
        ∃ pre p post m ss, (⟨f, b⟩ : MPacket) :: ps = pre ++ p :: post ∧ (∀ p ∈ pre, IsOps p) ∧ ¬ IsOps p ∧ openSingle p = .ok m ∧
          SigTail post ss ∧ r = .signed ss (some m) true) := by
      intro hn
      constructor
      · intro h
        obtain ⟨m, hm, h⟩ := except_bind_eq_ok.mp h
        obtain ⟨ss, hs, rfl⟩ := signedLoop_some.mp h
        exact .inr ⟨[], ⟨f, b⟩, ps, m, ss, rfl, by simp, hn, hm, hs, by simp⟩
      · rintro (⟨h, _⟩ | ⟨pre, p, post, m, ss, h, hpre, hp, hm, hs, rfl⟩)
        · exact absurd (h _ (by simp)) hn
        · cases pre with
          | nil =>
            simp only [List.nil_append, List.cons.injEq] at h
            obtain ⟨rfl, rfl⟩ := h
            rw [hm]
            simp only [except_bind_ok]
            exact signedLoop_some.mpr ⟨ss, hs, by simp⟩
          | cons x pre =>
            simp only [List.cons_append, List.cons.injEq] at h
            obtain ⟨rfl, h⟩ := h
            exact absurd (hpre _ (by simp)) hn
    cases b with
    | onePass o =>
      simp only [signedLoop, ih]
      have ho : IsOps ⟨f, .onePass o⟩ := ⟨o, rfl⟩
      constructor
      · rintro (⟨h, rfl⟩ | ⟨pre, p, post, m, ss, rfl, hpre, hp, hm, hs, rfl⟩)
        · refine .inl ⟨?_, rfl⟩
          intro p hp
          rcases List.mem_cons.mp hp with rfl | hp
          · exact ho
          · exact h p hp
        · refine .inr ⟨⟨f, .onePass o⟩ :: pre, p, post, m, ss, rfl, ?_, hp, hm, hs, rfl⟩
          intro p hp
          rcases List.mem_cons.mp hp with rfl | hp
          · exact ho
          · exact hpre p hp
      · rintro (⟨h, rfl⟩ | ⟨pre, p, post, m, ss, h, hpre, hp, hm, hs, rfl⟩)
        · exact .inl ⟨fun p hp => h p (by simp [hp]), rfl⟩
        · cases pre with
          | nil =>
            simp only [List.nil_append, List.cons.injEq] at h
            exact absurd (h.1 ▸ ho) hp
          | cons x pre =>
            simp only [List.cons_append, List.cons.injEq] at h
            exact .inr ⟨pre, p, post, m, ss, h.2, fun q hq => hpre q (by simp [hq]), hp, hm, hs, rfl⟩
    | sig s =>
      have hn : ¬ IsOps ⟨f, .sig s⟩ := by rintro ⟨o, h⟩; cases h
      rw [← other hn]
      simp [signedLoop, openSingle, bind, Except.bind]
    | _ => exact other (by rintro ⟨o, h⟩; cases h)

theorem not_ops_of_body {p : MPacket} (h : p.body.type ≠ 4) : ¬ IsOps p := by
  rintro ⟨o, ho⟩; rw [ho] at h; exact h rfl

theorem openSingle_eq {p : MPacket} (h : ¬ IsOps p) (hs : ∀ s, p.body ≠ .sig s) : openSingle p = openMessage [p] := by
  obtain ⟨f, b⟩ := p
  cases b with
  | onePass o => exact absurd ⟨o, rfl⟩ h
  | sig s => exact absurd rfl (hs s)
  | _ => rfl

/-- The encrypted messages. -/
theorem encrypted_messageOf {p : MPacket} {ps : List MPacket} {m : Msg} (ht : p.body.type = 1 ∨ p.body.type = 3 ∨ p.body.type = 9 ∨ p.body.type = 18) :
    encryptedFromPackets p ps = .ok m ↔ MessageOf (p :: ps) m := by
  rw [encryptedFromPackets_eq_ok]
  constructor
  · rintro (⟨esks, ks, f, q, rest', h, hk, hne, rfl⟩ | ⟨f, q, rfl, rfl⟩)
    · rw [h]; exact .encrypted esks ks f q rest' hk hne
    · exact .encryptedDefault f q ps
  · intro h
    generalize hl : p :: ps = l at h
    cases h with
    | literal f l t rest _ => cases hl; simp [MBody.type] at ht
    | compressed f c rest => cases hl; simp [MBody.type] at ht
    | encrypted esks keys f q rest hk hne => exact .inl ⟨esks, keys, f, q, rest, rfl, hk, hne, rfl⟩
    | encryptedDefault f q rest => cases hl; exact .inr ⟨f, q, rfl, rfl⟩
    | signedNothing _ _ h =>
      obtain ⟨o, ho⟩ := h p (by rw [← hl]; simp)
      rw [ho] at ht; simp [MBody.type] at ht
    | signed pre post q m sigs hne hpre _ _ _ =>
      cases pre with
      | nil => exact absurd rfl hne
      | cons x pre =>
        cases hl
        obtain ⟨o, ho⟩ := hpre p (by simp)
        rw [ho] at ht; simp [MBody.type] at ht

theorem head_ops_of_signed {p : MPacket} {ps pre post : List MPacket} {q : MPacket} (h : p :: ps = pre ++ q :: post) (hne : pre ≠ [])
    (hpre : ∀ p ∈ pre, IsOps p) : IsOps p := by
  cases pre with
  | nil => exact absurd rfl hne
  | cons x pre => cases h; exact hpre _ (by simp)

theorem head_key {p : MPacket} {ps esks rest : List MPacket} {f : HeaderFormat} {q : Seipd} {keys : List SessKey}
    (h : p :: ps = esks ++ ⟨f, .seipd q⟩ :: rest) (hk : List.Forall₂ KeyOf esks keys) (hne : keys ≠ []) : ∃ k, KeyOf p k := by
  cases hk with
  | nil => exact absurd rfl hne
  | cons h1 h2 => cases h; exact ⟨_, h1⟩

theorem openSingle_messageOf {p : MPacket} {m : Msg} (hp : ¬ IsOps p) : openSingle p = .ok m ↔ MessageOf [p] m := by
  obtain ⟨f, b⟩ := p
  have no : ∀ (_ : b.type ∉ [1, 3, 8, 9, 11, 18]), ¬ MessageOf [⟨f, b⟩] m := by
    intro ht h
    generalize hl : [(⟨f, b⟩ : MPacket)] = l at h
    cases h with
    | literal f l t rest _ => cases hl; simp [MBody.type] at ht
    | compressed f c rest => cases hl; simp [MBody.type] at ht
    | encrypted esks keys f q rest hk hne =>
      obtain ⟨k, hk⟩ := head_key hl hk hne
      have := keyOf_type hk
      simp only [List.mem_cons, List.not_mem_nil, or_false, not_or] at ht
      dsimp only at this
      omega
    | encryptedDefault f q rest => cases hl; simp [MBody.type] at ht
    | signedNothing _ _ h => exact hp (h _ (by rw [← hl]; simp))
    | signed pre post q m sigs hne hpre _ _ _ => exact hp (head_ops_of_signed hl hne hpre)
  cases b with
  | onePass o => exact absurd ⟨o, rfl⟩ hp
  | sig s => simp only [openSingle, reduceCtorEq, false_iff]; exact no (by simp [MBody.type])
  | other t =>
    simp only [openSingle, reduceCtorEq, false_iff]
    refine no (fun h => t.2 ?_)
    simp only [MBody.type, List.mem_cons, List.not_mem_nil, or_false] at h ⊢
    omega
  | pkesk _ => exact encrypted_messageOf (by simp [MBody.type])
  | skesk _ => exact encrypted_messageOf (by simp [MBody.type])
  | sed _ => exact encrypted_messageOf (by simp [MBody.type])
  | seipd _ => exact encrypted_messageOf (by simp [MBody.type])
  | compressed c =>
    simp only [openSingle, Except.ok.injEq]
    constructor
    · rintro rfl; exact .compressed f c []
    · intro h
      generalize hl : [(⟨f, .compressed c⟩ : MPacket)] = l at h
      cases h with
      | literal f l t rest _ => cases hl
      | compressed f c rest => cases hl; rfl
      | encrypted esks keys f q rest hk hne => obtain ⟨k, hk⟩ := head_key hl hk hne; cases hk
      | encryptedDefault f q rest => cases hl
      | signedNothing _ _ h => exact absurd (h _ (by rw [← hl]; simp)) hp
      | signed pre post q m sigs hne hpre _ _ _ => exact absurd (head_ops_of_signed hl hne hpre) hp
  | literal l =>
    simp only [openSingle, literalMessage_eq_ok]
    constructor
    · rintro ⟨t, ht, rfl⟩; exact .literal f l t [] ht
    · intro h
      generalize hl : [(⟨f, .literal l⟩ : MPacket)] = l at h
      cases h with
      | literal f l t rest ht => cases hl; exact ⟨t, ht, rfl⟩
      | compressed f c rest => cases hl
      | encrypted esks keys f q rest hk hne => obtain ⟨k, hk⟩ := head_key hl hk hne; cases hk
      | encryptedDefault f q rest => cases hl
      | signedNothing _ _ h => exact absurd (h _ (by rw [← hl]; simp)) hp
      | signed pre post q m sigs hne hpre _ _ _ => exact absurd (head_ops_of_signed hl hne hpre) hp

end Pgp
