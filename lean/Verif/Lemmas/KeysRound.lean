import Verif.Lemmas.KeysGrammar
/-
A key object made from packets, turned back into packets.
-/
namespace Pgp
open Spec

def IsSigK : KBody → Prop
  | .sig _ => True
  | _ => False

def HeadNot (P : KBody → Prop) (rest : List KPacket) : Prop := ∀ p t, rest = p :: t → ¬ P p.body

theorem headNot_nil {P : KBody → Prop} : HeadNot P [] := fun _ _ h => by cases h

theorem headNot_groups {P : KBody → Prop} {GS : List (List KPacket)} {rest : List KPacket} (hg : ∀ g ∈ GS, ∃ p t, g = p :: t ∧ ¬ P p.body)
    (hr : HeadNot P rest) : HeadNot P (GS.flatten ++ rest) := by
  cases GS with
  | nil => exact hr
  | cons g GS =>
    obtain ⟨p, t, rfl, hp⟩ := hg g List.mem_cons_self
    intro q t' h
    simp only [List.flatten_cons, List.cons_append, List.cons.injEq] at h
    rw [← h.1]; exact hp

/-- The elements of a list of signature packets. -/
def sigElems : List KPacket → List KElem
  | ⟨f, .sig s⟩ :: ps => ⟨f, .sig s⟩ :: sigElems ps
  | _ => []

theorem takeSigs_nonsig {rest : List KPacket} (h : HeadNot IsSigK rest) : takeSigs rest = ([], rest) := by
  cases rest with
  | nil => rfl
  | cons p t =>
    obtain ⟨f, b⟩ := p
    have := h _ _ rfl
    cases b <;> first | rfl | exact absurd trivial this

theorem takeSigs_run {ss : List KPacket} (hs : ∀ p ∈ ss, IsSigK p.body) {rest : List KPacket} (hr : HeadNot IsSigK rest) :
    takeSigs (ss ++ rest) = (sigElems ss, rest) := by
  induction ss with
  | nil => exact takeSigs_nonsig hr
  | cons p ss ih =>
    have hp := hs p List.mem_cons_self
    obtain ⟨f, b⟩ := p
    cases b <;> first | exact hp.elim | skip
    rw [List.cons_append, takeSigs, ih (fun p h => hs p (List.mem_cons_of_mem _ h))]
    rfl

theorem sigElems_back {ss : List KPacket} (hs : ∀ p ∈ ss, ∃ s, p.body = .sig s ∧ SigV4 s) : (sigElems ss).mapM KElem.toPacket = (.ok ss : Py _) := by
  induction ss with
  | nil => rfl
  | cons p ss ih =>
    obtain ⟨s, hb, h4⟩ := hs p List.mem_cons_self
    obtain ⟨f, b⟩ := p
    simp only at hb
    subst hb
    cases s with
    | v3 => exact h4.elim
    | v4 =>
      rw [sigElems, List.mapM_cons, ih (fun p h => hs p (List.mem_cons_of_mem _ h))]
      rfl

/-- A group of packets: a leader and signatures. -/
structure PGroup where
  lead : KPacket
  sigs : List KPacket

def PGroup.packets (g : PGroup) : List KPacket := g.lead :: g.sigs

def PGroup.Ok (P : KBody → Prop) (g : PGroup) : Prop := P g.lead.body ∧ ∀ p ∈ g.sigs, IsSigK p.body

def IsUid : KBody → Prop | .uid _ => True | _ => False
def IsAttr : KBody → Prop | .attr _ => True | _ => False
def IsSub : KBody → Prop | .key _ true _ _ => True | _ => False

def unitOf (f : HeaderFormat) : KBody → KElem
  | .key a b k p => ⟨f, .key a b (keyRound k) p⟩
  | .sig s => ⟨f, .sig s⟩
  | .uid s => ⟨f, .uid s⟩
  | _ => ⟨f, .uid []⟩

def PGroup.elem (g : PGroup) : KGroup := (unitOf g.lead.fmt g.lead.body, sigElems g.sigs)

theorem headNot_packets {P Q : KBody → Prop} (hPQ : ∀ b, P b → ¬ Q b) {gs : List PGroup} (hg : ∀ g ∈ gs, g.Ok P) {rest : List KPacket}
    (hr : HeadNot Q rest) : HeadNot Q ((gs.map PGroup.packets).flatten ++ rest) := by
  apply headNot_groups _ hr
  intro x hx
  obtain ⟨g, hg', rfl⟩ := List.mem_map.mp hx
  exact ⟨g.lead, g.sigs, rfl, hPQ _ (hg g hg').1⟩

theorem takeUids_run {rest : List KPacket} (hr : HeadNot IsSigK rest) (hr' : HeadNot IsUid rest) : ∀ (gs : List PGroup), (∀ g ∈ gs, g.Ok IsUid) →
    ∀ fuel, gs.length ≤ fuel → takeUids fuel ((gs.map PGroup.packets).flatten ++ rest) = (gs.map PGroup.elem, rest) := by
  intro gs
  induction gs with
  | nil =>
    intro _ fuel _
    cases fuel with
    | zero => rfl
    | succ fuel =>
      cases rest with
      | nil => rfl
      | cons p t =>
        obtain ⟨f, b⟩ := p
        have := hr' _ _ rfl
        cases b <;> first | rfl | exact absurd trivial this
  | cons g gs ih =>
    intro hg fuel hf
    obtain ⟨hl, hs⟩ := hg g List.mem_cons_self
    have hg' : ∀ g ∈ gs, g.Ok IsUid := fun g h => hg g (List.mem_cons_of_mem _ h)
    cases fuel with
    | zero => simp at hf
    | succ fuel =>
      obtain ⟨⟨f, b⟩, sigs⟩ := g
      cases b <;> first | exact hl.elim | skip
      simp only [List.map_cons, List.flatten_cons, PGroup.packets, List.cons_append, List.append_assoc]
      rw [takeUids, takeSigs_run hs (headNot_packets (P := IsUid) (by intro b h h'; cases b <;> first | exact h.elim | exact h'.elim) hg' hr)]
      have := ih hg' fuel (by simpa using hf)
      simp only [this]
      rfl

theorem takeSubs_run {rest : List KPacket} (hr : HeadNot IsSigK rest) (hr' : HeadNot IsSub rest) : ∀ (gs : List PGroup), (∀ g ∈ gs, g.Ok IsSub) →
    ∀ fuel, gs.length ≤ fuel → takeSubs fuel ((gs.map PGroup.packets).flatten ++ rest) = (gs.map PGroup.elem, rest) := by
  intro gs
  induction gs with
  | nil =>
    intro _ fuel _
    cases fuel with
    | zero => rfl
    | succ fuel =>
      cases rest with
      | nil => rfl
      | cons p t =>
        obtain ⟨f, b⟩ := p
        have := hr' _ _ rfl
        cases b with
        | key a b c d => cases b <;> first | rfl | exact absurd trivial this
        | _ => rfl
  | cons g gs ih =>
    intro hg fuel hf
    obtain ⟨hl, hs⟩ := hg g List.mem_cons_self
    have hg' : ∀ g ∈ gs, g.Ok IsSub := fun g h => hg g (List.mem_cons_of_mem _ h)
    cases fuel with
    | zero => simp at hf
    | succ fuel =>
      obtain ⟨⟨f, b⟩, sigs⟩ := g
      cases b with
      | key a b c d =>
        cases b with
        | false => exact hl.elim
        | true =>
          simp only [List.map_cons, List.flatten_cons, PGroup.packets, List.cons_append, List.append_assoc]
          rw [takeSubs, takeSigs_run hs (headNot_packets (P := IsSub) (by intro b h h'; cases b <;> first | exact h.elim | exact h'.elim) hg' hr)]
          have := ih hg' fuel (by simpa using hf)
          simp only [this]
          rfl
      | _ => exact hl.elim

theorem items_back (magic : Bytes → Str) (as : List AttrSub) (hm1 : ∀ a ∈ as, StdImage magic a) :
    ∃ items, as.mapM (attrItem magic) = .ok items ∧ items.mapM attrSubOf = some as := by
  induction as with
  | nil => exact ⟨[], rfl, rfl⟩
  | cons a as iha =>
    obtain ⟨items, i1, i2⟩ := iha (fun a h => hm1 a (List.mem_cons_of_mem _ h))
    have ha := hm1 a List.mem_cons_self
    cases a with
    | other t => exact ha.elim
    | image hv hl fm d =>
      obtain ⟨rfl, rfl, hf⟩ := ha
      rcases hf with rfl | ⟨rfl, ⟨sub, hsub⟩, hj⟩
      · refine ⟨("image/jpeg".toList, d) :: items, ?_, ?_⟩
        · rw [List.mapM_cons, i1]; rfl
        · rw [List.mapM_cons, i2]; rfl
      · refine ⟨(magic (d.take 1024), d) :: items, ?_, ?_⟩
        · rw [List.mapM_cons, i1]; rfl
        · rw [List.mapM_cons, i2]
          have h1 : (magic (d.take 1024)).takeWhile (· ≠ '/') = "image".toList := by
            rw [hsub]; rfl
          simp only [attrSubOf, h1, ne_eq, not_true_eq_false, if_false]
          rw [if_neg hj]
          rfl

theorem takeAttrs_run (magic : Bytes → Str) {rest : List KPacket} (hr : HeadNot IsSigK rest) (hr' : HeadNot IsAttr rest) : ∀ (gs : List PGroup),
    (∀ g ∈ gs, g.Ok IsAttr) → (∀ g ∈ gs, Modern magic g.lead.body) → (∀ g ∈ gs, ∀ p ∈ g.sigs, ∃ s, p.body = .sig s ∧ SigV4 s) →
    ∀ fuel, gs.length ≤ fuel → ∃ ks, takeAttrs magic fuel ((gs.map PGroup.packets).flatten ++ rest) = .ok (ks, rest) ∧
      ks.mapM groupPackets = (.ok (gs.map PGroup.packets) : Py _) := by
  intro gs
  induction gs with
  | nil =>
    intro _ _ _ fuel _
    refine ⟨[], ?_, rfl⟩
    cases fuel with
    | zero => rfl
    | succ fuel =>
      cases rest with
      | nil => rfl
      | cons p t =>
        obtain ⟨f, b⟩ := p
        have := hr' _ _ rfl
        cases b <;> first | rfl | exact absurd trivial this
  | cons g gs ih =>
    intro hg hm h4 fuel hf
    obtain ⟨hl, hs⟩ := hg g List.mem_cons_self
    have hg' : ∀ g ∈ gs, g.Ok IsAttr := fun g h => hg g (List.mem_cons_of_mem _ h)
    have hm0 := hm g List.mem_cons_self
    have h40 := h4 g List.mem_cons_self
    cases fuel with
    | zero => simp at hf
    | succ fuel =>
      obtain ⟨⟨f, b⟩, sigs⟩ := g
      cases b <;> first | exact hl.elim | skip
      rename_i as
      obtain ⟨ks, hk1, hk2⟩ := ih hg' (fun g h => hm g (List.mem_cons_of_mem _ h)) (fun g h => h4 g (List.mem_cons_of_mem _ h)) fuel (by simpa using hf)
      have hitems := items_back magic as hm0
      obtain ⟨items, i1, i2⟩ := hitems
      refine ⟨(⟨f, .attr items⟩, sigElems sigs) :: ks, ?_, ?_⟩
      · simp only [List.map_cons, List.flatten_cons, PGroup.packets, List.cons_append, List.append_assoc]
        rw [takeAttrs, i1, takeSigs_run hs (headNot_packets (P := IsAttr) (by intro b h h'; cases b <;> first | exact h.elim | exact h'.elim) hg' hr)]
        simp only [except_bind_ok]
        rw [hk1]
        rfl
      · rw [List.mapM_cons, hk2]
        have : groupPackets (⟨f, .attr items⟩, sigElems sigs) = .ok (⟨f, .attr as⟩ :: sigs) := by
          unfold groupPackets
          simp only [KElem.toPacket, i2, sigElems_back h40, except_bind_ok]
          rfl
        rw [this]
        rfl

theorem elems_back {gs : List PGroup} (h4 : ∀ g ∈ gs, ∀ p ∈ g.sigs, ∃ s, p.body = .sig s ∧ SigV4 s)
    (hl : ∀ g ∈ gs, (∃ s, g.lead.body = .uid s) ∨ (∃ a b k p, g.lead.body = .key a b k p ∧ k.expirationDays = none)) :
    (gs.map PGroup.elem).mapM groupPackets = (.ok (gs.map PGroup.packets) : Py _) := by
  induction gs with
  | nil => rfl
  | cons g gs ih =>
    have ih' := ih (fun g h => h4 g (List.mem_cons_of_mem _ h)) (fun g h => hl g (List.mem_cons_of_mem _ h))
    have h40 := h4 g List.mem_cons_self
    have hl0 := hl g List.mem_cons_self
    obtain ⟨⟨f, b⟩, sigs⟩ := g
    have : groupPackets (PGroup.elem ⟨⟨f, b⟩, sigs⟩) = .ok (PGroup.packets ⟨⟨f, b⟩, sigs⟩) := by
      unfold groupPackets
      simp only [PGroup.elem, sigElems_back h40]
      rcases hl0 with ⟨s, hb⟩ | ⟨a, b', k, p, hb, he⟩
      · simp only at hb
        subst hb
        rfl
      · simp only at hb
        subst hb
        have : keyRound k = k := by cases k; simp only [keyRound] at he ⊢; rw [he]
        simp only [unitOf, KElem.toPacket, this]
        rfl
    rw [List.map_cons, List.mapM_cons, this, ih']
    rfl

/-! ### Lifting the grammar from packet bodies to packets -/

theorem lift_groups {G : List KBody → Prop} {P : KBody → Prop} (hG : ∀ g, G g → ∃ p t, g = p :: t ∧ P p ∧ ∀ q ∈ t, IsSigK q ∨ IsTrust q)
    {U : List KPacket} (hU : Groups G (U.map KPacket.body)) (hnt : ∀ p ∈ U, ¬ IsTrust p.body) :
    ∃ gs : List PGroup, U = (gs.map PGroup.packets).flatten ∧ ∀ g ∈ gs, g.Ok P := by
  obtain ⟨bs, hbs, hb⟩ := hU
  induction bs generalizing U with
  | nil =>
    simp only [List.flatten_nil, List.map_eq_nil_iff] at hbs
    exact ⟨[], by simpa using hbs, fun _ h => absurd h List.not_mem_nil⟩
  | cons b bs ih =>
    rw [List.flatten_cons, List.map_eq_append_iff] at hbs
    obtain ⟨u1, u2, rfl, h1, h2⟩ := hbs
    obtain ⟨gs, hgs, hok⟩ := ih (fun p h => hnt p (List.mem_append_right _ h)) h2 (fun g h => hb g (List.mem_cons_of_mem _ h))
    obtain ⟨p, t, hpt, hP, hq⟩ := hG b (hb b List.mem_cons_self)
    rw [hpt, List.map_eq_cons_iff] at h1
    obtain ⟨lead, sigs, rfl, hlead, hsigs⟩ := h1
    refine ⟨⟨lead, sigs⟩ :: gs, by rw [hgs]; rfl, fun g hg => ?_⟩
    rcases List.mem_cons.mp hg with rfl | hg
    · refine ⟨by rw [hlead]; exact hP, fun s hs => ?_⟩
      rcases hq s.body (by rw [← hsigs]; exact List.mem_map_of_mem hs) with h | h
      · exact h
      · exact absurd h (hnt s (List.mem_append_left _ (List.mem_cons_of_mem _ hs)))
    · exact hok g hg

theorem SigRun_sigs {types : List Nat} {a : Bool} {l : List KBody} (h : SigRun types a l) : ∀ q ∈ l, IsSigK q ∨ IsTrust q := by
  intro q hq
  rcases h.1 q hq with h | h
  · left; cases q <;> first | exact h.elim | trivial
  · exact Or.inr h

theorem UidGroup_shape (g : List KBody) (h : UidGroup g) : ∃ p t, g = p :: t ∧ IsUid p ∧ ∀ q ∈ t, IsSigK q ∨ IsTrust q := by
  obtain ⟨s, b, rfl, hb⟩ := h
  exact ⟨_, b, rfl, trivial, SigRun_sigs hb⟩

theorem AttrGroup_shape (g : List KBody) (h : AttrGroup g) : ∃ p t, g = p :: t ∧ IsAttr p ∧ ∀ q ∈ t, IsSigK q ∨ IsTrust q := by
  obtain ⟨s, b, rfl, hb⟩ := h
  exact ⟨_, b, rfl, trivial, SigRun_sigs hb⟩

theorem SubGroup_shape {secret : Bool} (g : List KBody) (h : SubGroup secret g) : ∃ p t, g = p :: t ∧ IsSub p ∧ ∀ q ∈ t, IsSigK q ∨ IsTrust q := by
  obtain ⟨s, p, b, rfl, _, hb⟩ := h
  exact ⟨_, b, rfl, trivial, SigRun_sigs hb⟩

/-- The packets of an accepted sequence without trust packets, in groups. -/
structure PKey (secret : Bool) (ps : List KPacket) where
  fmt : HeaderFormat
  key : PubKey
  priv : Option SecPart
  direct : List KPacket
  uids : List PGroup
  attrs : List PGroup
  subs : List PGroup
  eq : ps = ⟨fmt, .key secret false key priv⟩ :: (direct ++ ((uids.map PGroup.packets).flatten ++
    ((attrs.map PGroup.packets).flatten ++ ((subs.map PGroup.packets).flatten ++ []))))
  hdirect : ∀ p ∈ direct, IsSigK p.body
  huids : ∀ g ∈ uids, g.Ok IsUid
  hattrs : ∀ g ∈ attrs, g.Ok IsAttr
  hsubs : ∀ g ∈ subs, g.Ok IsSub

theorem lift_key {secret : Bool} {ps : List KPacket} (h : KeySequence secret (ps.map KPacket.body)) (hnt : ∀ p ∈ ps, ¬ IsTrust p.body) :
    Nonempty (PKey secret ps) := by
  obtain ⟨k, priv, d, u, a, s, he, h1, h2, h3, h4⟩ := h
  rw [List.map_eq_cons_iff] at he
  obtain ⟨lead, rest, rfl, hlead, hrest⟩ := he
  rw [List.map_eq_append_iff] at hrest
  obtain ⟨r1, S, rfl, hrest, hS⟩ := hrest
  rw [List.map_eq_append_iff] at hrest
  obtain ⟨r2, A, rfl, hrest, hA⟩ := hrest
  rw [List.map_eq_append_iff] at hrest
  obtain ⟨D, U, rfl, hD, hU⟩ := hrest
  obtain ⟨gu, rfl, hgu⟩ := lift_groups UidGroup_shape (U := U) (by rw [hU]; exact h2) (fun p hp => hnt p (by simp [hp]))
  obtain ⟨ga, rfl, hga⟩ := lift_groups AttrGroup_shape (U := A) (by rw [hA]; exact h3) (fun p hp => hnt p (by simp [hp]))
  obtain ⟨gs, rfl, hgs⟩ := lift_groups SubGroup_shape (U := S) (by rw [hS]; exact h4.1) (fun p hp => hnt p (by simp [hp]))
  obtain ⟨f, b⟩ := lead
  simp only at hlead
  subst hlead
  refine ⟨⟨f, k, priv, D, gu, ga, gs, by simp, fun p hp => ?_, hgu, hga, hgs⟩⟩
  rcases SigRun_sigs h1.1 p.body (by rw [← hD]; exact List.mem_map_of_mem hp) with h | h
  · exact h
  · exact absurd h (hnt p (by simp [hp]))

theorem length_flatten_packets (gs : List PGroup) : gs.length ≤ ((gs.map PGroup.packets).flatten).length := by
  induction gs with
  | nil => simp
  | cons g gs ih => simp only [List.map_cons, List.flatten_cons, List.length_append, List.length_cons, PGroup.packets] at ih ⊢; omega

theorem key_roundtrip (magic : Bytes → Str) (secret : Bool) (ps : List KPacket) (hv : KeySequence secret (ps.map KPacket.body))
    (hm : ∀ p ∈ ps, Modern magic p.body) : ∃ k, TKey.fromPackets magic secret ps = .ok k ∧ k.toPackets = .ok ps := by
  have hnt : ∀ p ∈ ps, ¬ IsTrust p.body := by
    intro p hp h
    have := hm p hp
    cases hb : p.body <;> rw [hb] at h this <;> first | exact h.elim | exact this.elim
  obtain ⟨f, key, priv, direct, uids, attrs, subs, heq, hd, hu, ha, hs⟩ := lift_key hv hnt
  have sig4 : ∀ p ∈ ps, IsSigK p.body → ∃ s, p.body = .sig s ∧ SigV4 s := by
    intro p hp h
    have := hm p hp
    cases hb : p.body <;> rw [hb] at h this <;> first | exact h.elim | exact ⟨_, rfl, this⟩
  have mem_group : ∀ (gs : List PGroup) (q : KPacket), (∃ g ∈ gs, q = g.lead ∨ q ∈ g.sigs) → q ∈ (gs.map PGroup.packets).flatten := by
    rintro gs q ⟨g, hg, hq⟩
    refine List.mem_flatten.mpr ⟨g.packets, List.mem_map_of_mem hg, ?_⟩
    rcases hq with rfl | hq
    · exact List.mem_cons_self
    · exact List.mem_cons_of_mem _ hq
  have hvk := (validateKey_iff secret (ps.map KPacket.body)).mpr hv
  have hS : HeadNot IsSigK ((subs.map PGroup.packets).flatten ++ []) :=
    headNot_packets (P := IsSub) (by intro b h h'; cases b <;> first | exact h.elim | exact h'.elim) hs headNot_nil
  have hSA : HeadNot IsAttr ((subs.map PGroup.packets).flatten ++ []) :=
    headNot_packets (P := IsSub) (by intro b h h'; cases b <;> first | exact h.elim | exact h'.elim) hs headNot_nil
  have hSU : HeadNot IsUid ((subs.map PGroup.packets).flatten ++ []) :=
    headNot_packets (P := IsSub) (by intro b h h'; cases b <;> first | exact h.elim | exact h'.elim) hs headNot_nil
  have hA : HeadNot IsSigK ((attrs.map PGroup.packets).flatten ++ ((subs.map PGroup.packets).flatten ++ [])) :=
    headNot_packets (P := IsAttr) (by intro b h h'; cases b <;> first | exact h.elim | exact h'.elim) ha hS
  have hAU : HeadNot IsUid ((attrs.map PGroup.packets).flatten ++ ((subs.map PGroup.packets).flatten ++ [])) :=
    headNot_packets (P := IsAttr) (by intro b h h'; cases b <;> first | exact h.elim | exact h'.elim) ha hSU
  have hU : HeadNot IsSigK ((uids.map PGroup.packets).flatten ++ ((attrs.map PGroup.packets).flatten ++ ((subs.map PGroup.packets).flatten ++ []))) :=
    headNot_packets (P := IsUid) (by intro b h h'; cases b <;> first | exact h.elim | exact h'.elim) hu hA
  have inA : ∀ q, q ∈ (attrs.map PGroup.packets).flatten → q ∈ ps := fun q hq => by rw [heq]; simp only [List.mem_cons, List.mem_append]; tauto
  have inU : ∀ q, q ∈ (uids.map PGroup.packets).flatten → q ∈ ps := fun q hq => by rw [heq]; simp only [List.mem_cons, List.mem_append]; tauto
  have inS : ∀ q, q ∈ (subs.map PGroup.packets).flatten → q ∈ ps := fun q hq => by rw [heq]; simp only [List.mem_cons, List.mem_append]; tauto
  have inD : ∀ q, q ∈ direct → q ∈ ps := fun q hq => by rw [heq]; simp only [List.mem_cons, List.mem_append]; tauto
  obtain ⟨ks, ka, kb⟩ := takeAttrs_run magic hS hSA attrs ha
    (fun g hg => hm _ (inA _ (mem_group attrs _ ⟨g, hg, Or.inl rfl⟩)))
    (fun g hg p hp => sig4 _ (inA _ (mem_group attrs _ ⟨g, hg, Or.inr hp⟩)) ((ha g hg).2 p hp))
    ((attrs.map PGroup.packets).flatten ++ ((subs.map PGroup.packets).flatten ++ [])).length
    (by rw [List.length_append]; exact le_trans (length_flatten_packets attrs) (by omega))
  have ku := takeUids_run hA hAU uids hu
    ((uids.map PGroup.packets).flatten ++ ((attrs.map PGroup.packets).flatten ++ ((subs.map PGroup.packets).flatten ++ []))).length
    (by rw [List.length_append]; exact le_trans (length_flatten_packets uids) (by omega))
  have ks' := takeSubs_run headNot_nil headNot_nil subs hs ((subs.map PGroup.packets).flatten ++ []).length
    (by rw [List.length_append]; exact le_trans (length_flatten_packets subs) (by omega))
  have kd := takeSigs_run hd hU
  refine ⟨⟨(⟨f, .key secret false (keyRound key) priv⟩, sigElems direct), uids.map PGroup.elem, ks, subs.map PGroup.elem⟩, ?_, ?_⟩
  · unfold TKey.fromPackets
    rw [hvk]
    rw [heq]
    simp only [except_bind_ok, kd, ku, ka, ks']
    rfl
  · have hkey : key.expirationDays = none := hm ⟨f, .key secret false key priv⟩ (by rw [heq]; exact List.mem_cons_self)
    have hp : groupPackets (⟨f, .key secret false (keyRound key) priv⟩, sigElems direct) = .ok (⟨f, .key secret false key priv⟩ :: direct) := by
      unfold groupPackets
      have : keyRound key = key := by cases key; simp only [keyRound] at hkey ⊢; rw [hkey]
      simp only [KElem.toPacket, this, sigElems_back (fun p hp => sig4 p (inD p hp) (hd p hp)), except_bind_ok]
      rfl
    have hbu := elems_back (gs := uids) (fun g hg p hp => sig4 _ (inU _ (mem_group uids _ ⟨g, hg, Or.inr hp⟩)) ((hu g hg).2 p hp))
      (fun g hg => by
        have := (hu g hg).1
        cases hb : g.lead.body <;> rw [hb] at this <;> first | exact this.elim | exact Or.inl ⟨_, rfl⟩)
    have hbs := elems_back (gs := subs) (fun g hg p hp => sig4 _ (inS _ (mem_group subs _ ⟨g, hg, Or.inr hp⟩)) ((hs g hg).2 p hp))
      (fun g hg => by
        have h1 := (hs g hg).1
        have h2 := hm _ (inS _ (mem_group subs _ ⟨g, hg, Or.inl rfl⟩))
        cases hb : g.lead.body <;> rw [hb] at h1 h2 <;> first | exact h1.elim | exact Or.inr ⟨_, _, _, _, rfl, h2⟩)
    unfold TKey.toPackets
    simp only [hp, hbu, kb, hbs, except_bind_ok]
    rw [heq]
    simp only [List.append_nil, except_pure, List.cons_append, List.append_assoc]

end Pgp
