import Verif.Lemmas.KeysRound
import Verif.Model.Certify
import Verif.Spec.Certify
/-
The packets of a key in blocks, and how the key object is read from them.
-/
namespace Pgp
open Spec

/-- A key in blocks. -/
structure Arr where
  fmt : HeaderFormat
  key : PubKey
  priv : Option SecPart
  direct : List KPacket
  uids : List PGroup
  attrs : List PGroup
  subs : List PGroup

def groupsFlat (gs : List PGroup) : List KPacket := (gs.map PGroup.packets).flatten

def Arr.packets (secret : Bool) (A : Arr) : List KPacket :=
  ⟨A.fmt, .key secret false A.key A.priv⟩ :: (A.direct ++ (groupsFlat A.uids ++ (groupsFlat A.attrs ++ (groupsFlat A.subs ++ []))))

structure Arr.Ok (secret : Bool) (A : Arr) : Prop where
  direct : ∀ p ∈ A.direct, SigOf [0x1f, 0x20] p.body
  uids : ∀ g ∈ A.uids, IsUid g.lead.body ∧ ∀ p ∈ g.sigs, SigOf certTypes p.body
  attrs : ∀ g ∈ A.attrs, IsAttr g.lead.body ∧ ∀ p ∈ g.sigs, SigOf certTypes p.body
  subs : ∀ g ∈ A.subs, (∃ k priv, g.lead.body = .key secret true k priv) ∧ g.sigs ≠ [] ∧ ∀ p ∈ g.sigs, SigOf [0x18] p.body
  version : A.key.version < 4 → A.subs = []

theorem sigOf_isSigK {types : List Nat} {b : KBody} (h : SigOf types b) : IsSigK b := by
  cases b <;> first | exact h.elim | trivial

theorem sigRun_sigOf {types : List Nat} {a : Bool} {l : List KBody} (h : SigRun types a l) (hnt : ∀ p ∈ l, ¬ IsTrust p) : ∀ p ∈ l, SigOf types p :=
  fun p hp => (h.1 p hp).resolve_right (hnt p hp)

theorem sigOf_sigRun {types : List Nat} {l : List KBody} (h : ∀ p ∈ l, SigOf types p) (a : Bool) : SigRun types a l :=
  ⟨fun p hp => .inl (h p hp), fun _ p t e => by
    have := h p (by rw [e]; simp)
    intro hp
    cases p <;> first | exact hp | exact this⟩

/-- Groups of packet bodies, as groups of packets. -/
theorem lift_groups' {G : List KBody → Prop} {Q : PGroup → Prop}
    (hG : ∀ (l : List KPacket), G (l.map KPacket.body) → (∀ p ∈ l, ¬ IsTrust p.body) → ∃ g : PGroup, l = g.packets ∧ Q g)
    {U : List KPacket} (hU : Groups G (U.map KPacket.body)) (hnt : ∀ p ∈ U, ¬ IsTrust p.body) :
    ∃ gs : List PGroup, U = groupsFlat gs ∧ ∀ g ∈ gs, Q g := by
  obtain ⟨bs, hbs, hb⟩ := hU
  induction bs generalizing U with
  | nil =>
    simp only [List.flatten_nil, List.map_eq_nil_iff] at hbs
    exact ⟨[], by simpa [groupsFlat] using hbs, fun _ h => absurd h List.not_mem_nil⟩
  | cons b bs ih =>
    rw [List.flatten_cons, List.map_eq_append_iff] at hbs
    obtain ⟨u1, u2, rfl, h1, h2⟩ := hbs
    obtain ⟨gs, hgs, hok⟩ := ih (fun p h => hnt p (List.mem_append_right _ h)) h2 (fun g h => hb g (List.mem_cons_of_mem _ h))
    obtain ⟨g, rfl, hq⟩ := hG u1 (by rw [h1]; exact hb b List.mem_cons_self) (fun p h => hnt p (List.mem_append_left _ h))
    refine ⟨g :: gs, by rw [hgs]; rfl, fun g' hg => ?_⟩
    rcases List.mem_cons.mp hg with rfl | hg
    · exact hq
    · exact hok g' hg

theorem map_mem_of {l : List KPacket} {P : KBody → Prop} (h : ∀ b ∈ l.map KPacket.body, P b) : ∀ p ∈ l, P p.body :=
  fun p hp => h _ (List.mem_map_of_mem hp)

theorem arr_of {secret : Bool} {ps : List KPacket} (h : KeySequence secret (ps.map KPacket.body)) (hnt : ∀ p ∈ ps, ¬ IsTrust p.body) :
    ∃ A : Arr, A.Ok secret ∧ ps = A.packets secret := by
  obtain ⟨k, priv, d, u, a, s, he, h1, h2, h3, h4⟩ := h
  rw [List.map_eq_cons_iff] at he
  obtain ⟨lead, rest, rfl, hlead, hrest⟩ := he
  rw [List.map_eq_append_iff] at hrest
  obtain ⟨r1, S, rfl, hrest, hS⟩ := hrest
  rw [List.map_eq_append_iff] at hrest
  obtain ⟨r2, A, rfl, hrest, hA⟩ := hrest
  rw [List.map_eq_append_iff] at hrest
  obtain ⟨D, U, rfl, hD, hU⟩ := hrest
  have cert : ∀ (P : KBody → Prop) (l : List KPacket) (lead : KBody) (body : List KBody), P lead → l.map KPacket.body = lead :: body →
      SigRun certTypes false body → (∀ p ∈ l, ¬ IsTrust p.body) →
      ∃ g : PGroup, l = g.packets ∧ P g.lead.body ∧ ∀ p ∈ g.sigs, SigOf certTypes p.body := by
    intro P l lead body hP he hr hn
    rw [List.map_eq_cons_iff] at he
    obtain ⟨x, t, rfl, e1, e2⟩ := he
    refine ⟨⟨x, t⟩, rfl, by rw [e1]; exact hP, map_mem_of ?_⟩
    rw [e2]
    refine sigRun_sigOf hr fun p hp => ?_
    rw [← e2] at hp
    obtain ⟨q, hq, rfl⟩ := List.mem_map.mp hp
    exact hn q (List.mem_cons_of_mem _ hq)
  obtain ⟨gu, rfl, hgu⟩ := lift_groups' (G := UidGroup) (Q := fun g => IsUid g.lead.body ∧ ∀ p ∈ g.sigs, SigOf certTypes p.body) (U := U)
    (fun l hl hn => by obtain ⟨s, body, e, hr⟩ := hl; exact cert IsUid l (.uid s) body trivial e hr hn) (by rw [hU]; exact h2) (fun p hp => hnt p (by simp [hp]))
  obtain ⟨ga, rfl, hga⟩ := lift_groups' (G := AttrGroup) (Q := fun g => IsAttr g.lead.body ∧ ∀ p ∈ g.sigs, SigOf certTypes p.body) (U := A)
    (fun l hl hn => by obtain ⟨s, body, e, hr⟩ := hl; exact cert IsAttr l (.attr s) body trivial e hr hn) (by rw [hA]; exact h3) (fun p hp => hnt p (by simp [hp]))
  obtain ⟨gs, hgs', hgs⟩ := lift_groups' (G := SubGroup secret) (Q := fun g => (∃ k priv, g.lead.body = .key secret true k priv) ∧ g.sigs ≠ [] ∧ ∀ p ∈ g.sigs, SigOf [0x18] p.body) (U := S)
    (fun l hl hn => by
      obtain ⟨k, priv, body, e, hne, hr⟩ := hl
      rw [List.map_eq_cons_iff] at e
      obtain ⟨x, t, rfl, e1, e2⟩ := e
      refine ⟨⟨x, t⟩, rfl, ⟨k, priv, e1⟩, by rintro rfl; exact hne e2.symm, map_mem_of ?_⟩
      rw [e2]
      refine sigRun_sigOf hr fun p hp => ?_
      rw [← e2] at hp
      obtain ⟨q, hq, rfl⟩ := List.mem_map.mp hp
      exact hn q (List.mem_cons_of_mem _ hq)) (by rw [hS]; exact h4.1) (fun p hp => hnt p (by simp [hp]))
  obtain ⟨f, b⟩ := lead
  simp only at hlead
  subst hlead
  refine ⟨⟨f, k, priv, D, gu, ga, gs⟩, ⟨?_, hgu, hga, hgs, ?_⟩, by simp [Arr.packets, hgs']⟩
  · apply map_mem_of
    rw [hD]
    refine sigRun_sigOf h1.1 fun p hp => ?_
    rw [← hD] at hp
    obtain ⟨q, hq, rfl⟩ := List.mem_map.mp hp
    exact hnt q (by simp [hq])
  · intro hv
    have h5 := h4.2 hv
    rw [← hS, hgs', List.map_eq_nil_iff] at h5
    cases gs with
    | nil => rfl
    | cons g gs => simp [groupsFlat, PGroup.packets] at h5

theorem groups_of {G : List KBody → Prop} {gs : List PGroup} (h : ∀ g ∈ gs, G (g.packets.map KPacket.body)) : Groups G ((groupsFlat gs).map KPacket.body) :=
  ⟨gs.map fun g => g.packets.map KPacket.body, by simp [groupsFlat, List.map_flatten, Function.comp_def], by simpa using h⟩

theorem arr_seq {secret : Bool} {A : Arr} (h : A.Ok secret) : KeySequence secret ((A.packets secret).map KPacket.body) := by
  have bodies : ∀ {types : List Nat} {l : List KPacket}, (∀ p ∈ l, SigOf types p.body) → ∀ b ∈ l.map KPacket.body, SigOf types b := by
    intro types l h b hb
    obtain ⟨q, hq, rfl⟩ := List.mem_map.mp hb
    exact h q hq
  refine ⟨A.key, A.priv, A.direct.map KPacket.body, (groupsFlat A.uids).map KPacket.body, (groupsFlat A.attrs).map KPacket.body,
    (groupsFlat A.subs).map KPacket.body, by simp [Arr.packets], ⟨sigOf_sigRun (bodies h.direct) _, ?_⟩, groups_of ?_, groups_of ?_, groups_of ?_, ?_⟩
  · intro a p b e _
    refine ⟨rfl, fun q hq ht => ?_⟩
    have := bodies h.direct q (by rw [e]; simp [hq])
    cases q <;> first | exact ht | exact this
  · intro g hg
    obtain ⟨h1, h2⟩ := h.uids g hg
    obtain ⟨⟨f, b⟩, sigs⟩ := g
    cases b <;> first | exact h1.elim | exact ⟨_, _, rfl, sigOf_sigRun (bodies h2) _⟩
  · intro g hg
    obtain ⟨h1, h2⟩ := h.attrs g hg
    obtain ⟨⟨f, b⟩, sigs⟩ := g
    cases b <;> first | exact h1.elim | exact ⟨_, _, rfl, sigOf_sigRun (bodies h2) _⟩
  · intro g hg
    obtain ⟨⟨k, priv, h1⟩, h2, h3⟩ := h.subs g hg
    obtain ⟨⟨f, b⟩, sigs⟩ := g
    simp only at h1
    subst h1
    exact ⟨k, priv, sigs.map KPacket.body, rfl, by simpa using h2, sigOf_sigRun (bodies h3) _⟩
  · intro hv
    rw [h.version hv]; rfl

/-! ### The object -/

def PGroup.block (g : PGroup) : Block := ⟨g.lead, g.sigs⟩

structure Arr.Read (magic : Bytes → Str) (secret : Bool) (A : Arr) (k : TKey) : Prop where
  primary : PartOf magic ⟨⟨A.fmt, .key secret false A.key A.priv⟩, A.direct⟩ k.primary
  uids : List.Forall₂ (fun g e => PartOf magic (PGroup.block g) e) A.uids k.uids
  attrs : List.Forall₂ (fun g e => PartOf magic (PGroup.block g) e) A.attrs k.attrs
  subs : List.Forall₂ (fun g e => PartOf magic (PGroup.block g) e) A.subs k.subs

theorem sigElems_read {magic : Bytes → Str} {ss : List KPacket} (hs : ∀ p ∈ ss, IsSigK p.body) : List.Forall₂ (ElementOf magic) ss (sigElems ss) := by
  induction ss with
  | nil => exact .nil
  | cons p ss ih =>
    have hp := hs p List.mem_cons_self
    obtain ⟨f, b⟩ := p
    cases b <;> first | exact hp.elim | exact .cons ⟨rfl, rfl⟩ (ih fun p h => hs p (List.mem_cons_of_mem _ h))

theorem elems_read {magic : Bytes → Str} {gs : List PGroup} (hs : ∀ g ∈ gs, ∀ p ∈ g.sigs, IsSigK p.body)
    (hl : ∀ g ∈ gs, IsUid g.lead.body ∨ ∃ a b k p, g.lead.body = .key a b k p) :
    List.Forall₂ (fun g e => PartOf magic (PGroup.block g) e) gs (gs.map PGroup.elem) := by
  induction gs with
  | nil => exact .nil
  | cons g gs ih =>
    refine .cons ⟨?_, sigElems_read (hs g List.mem_cons_self)⟩ (ih (fun g h => hs g (List.mem_cons_of_mem _ h)) (fun g h => hl g (List.mem_cons_of_mem _ h)))
    have := hl g List.mem_cons_self
    obtain ⟨⟨f, b⟩, sigs⟩ := g
    rcases this with h | ⟨a, b', k, p, h⟩
    · cases b <;> first | exact h.elim | exact ⟨rfl, rfl⟩
    · simp only at h
      subst h
      exact ⟨rfl, rfl⟩

theorem items_read {magic : Bytes → Str} : ∀ {as : List AttrSub} {items : List (Str × Bytes)}, as.mapM (attrItem magic) = .ok items →
    List.Forall₂ (ItemRead magic) as items := by
  intro as
  induction as with
  | nil => intro items h; cases h; exact .nil
  | cons a as ih =>
    intro items h
    rw [List.mapM_cons] at h
    obtain ⟨x, hx, h⟩ := except_bind_eq_ok.mp h
    obtain ⟨xs, hxs, h⟩ := except_bind_eq_ok.mp h
    cases h
    cases a with
    | other => cases hx
    | image v l f d => cases hx; exact .cons ⟨v, l, f, d, rfl, rfl⟩ (ih hxs)

theorem takeAttrs_inv (magic : Bytes → Str) {rest : List KPacket} (hr : HeadNot IsSigK rest) (hr' : HeadNot IsAttr rest) : ∀ (gs : List PGroup),
    (∀ g ∈ gs, g.Ok IsAttr) → ∀ fuel, gs.length ≤ fuel → ∀ ks r, takeAttrs magic fuel (groupsFlat gs ++ rest) = .ok (ks, r) →
      r = rest ∧ List.Forall₂ (fun g e => PartOf magic (PGroup.block g) e) gs ks := by
  intro gs
  induction gs with
  | nil =>
    intro _ fuel _ ks r h
    have : takeAttrs magic fuel (groupsFlat [] ++ rest) = .ok ([], rest) := by
      cases fuel with
      | zero => rfl
      | succ fuel =>
        cases rest with
        | nil => rfl
        | cons p t =>
          obtain ⟨f, b⟩ := p
          have := hr' _ _ rfl
          cases b <;> first | rfl | exact absurd trivial this
    rw [this] at h
    cases h
    exact ⟨rfl, .nil⟩
  | cons g gs ih =>
    intro hg fuel hf ks r h
    obtain ⟨hl, hs⟩ := hg g List.mem_cons_self
    have hg' : ∀ g ∈ gs, g.Ok IsAttr := fun g h => hg g (List.mem_cons_of_mem _ h)
    cases fuel with
    | zero => simp at hf
    | succ fuel =>
      obtain ⟨⟨f, b⟩, sigs⟩ := g
      cases b <;> first | exact hl.elim | skip
      rename_i as
      have hflat : groupsFlat (⟨⟨f, .attr as⟩, sigs⟩ :: gs) ++ rest = ⟨f, .attr as⟩ :: (sigs ++ (groupsFlat gs ++ rest)) := by
        simp [groupsFlat, PGroup.packets]
      have hts : takeSigs (sigs ++ (groupsFlat gs ++ rest)) = (sigElems sigs, groupsFlat gs ++ rest) :=
        takeSigs_run hs (headNot_packets (P := IsAttr) (by intro b h h'; cases b <;> first | exact h.elim | exact h'.elim) hg' hr)
      rw [hflat, takeAttrs, hts] at h
      obtain ⟨items, h1, h⟩ := except_bind_eq_ok.mp h
      obtain ⟨⟨gs', rest'⟩, h2, h⟩ := except_bind_eq_ok.mp h
      cases h
      obtain ⟨rfl, h3⟩ := ih hg' fuel (by simpa using hf) _ _ h2
      exact ⟨rfl, .cons ⟨⟨rfl, items, rfl, items_read h1⟩, sigElems_read hs⟩ h3⟩

theorem arr_read {magic : Bytes → Str} {secret : Bool} {A : Arr} (h : A.Ok secret) {k : TKey}
    (hk : TKey.fromPackets magic secret (A.packets secret) = .ok k) : A.Read magic secret k := by
  have hd : ∀ p ∈ A.direct, IsSigK p.body := fun p hp => sigOf_isSigK (h.direct p hp)
  have hu : ∀ g ∈ A.uids, g.Ok IsUid := fun g hg => ⟨(h.uids g hg).1, fun p hp => sigOf_isSigK ((h.uids g hg).2 p hp)⟩
  have ha : ∀ g ∈ A.attrs, g.Ok IsAttr := fun g hg => ⟨(h.attrs g hg).1, fun p hp => sigOf_isSigK ((h.attrs g hg).2 p hp)⟩
  have hs : ∀ g ∈ A.subs, g.Ok IsSub := fun g hg => ⟨by obtain ⟨⟨k, p, e⟩, _⟩ := h.subs g hg; rw [e]; trivial,
    fun p hp => sigOf_isSigK ((h.subs g hg).2.2 p hp)⟩
  have hS : HeadNot IsSigK (groupsFlat A.subs ++ []) :=
    headNot_packets (P := IsSub) (by intro b h h'; cases b <;> first | exact h.elim | exact h'.elim) hs headNot_nil
  have hSA : HeadNot IsAttr (groupsFlat A.subs ++ []) :=
    headNot_packets (P := IsSub) (by intro b h h'; cases b <;> first | exact h.elim | exact h'.elim) hs headNot_nil
  have hSU : HeadNot IsUid (groupsFlat A.subs ++ []) :=
    headNot_packets (P := IsSub) (by intro b h h'; cases b <;> first | exact h.elim | exact h'.elim) hs headNot_nil
  have hA : HeadNot IsSigK (groupsFlat A.attrs ++ (groupsFlat A.subs ++ [])) :=
    headNot_packets (P := IsAttr) (by intro b h h'; cases b <;> first | exact h.elim | exact h'.elim) ha hS
  have hAU : HeadNot IsUid (groupsFlat A.attrs ++ (groupsFlat A.subs ++ [])) :=
    headNot_packets (P := IsAttr) (by intro b h h'; cases b <;> first | exact h.elim | exact h'.elim) ha hSU
  have hU : HeadNot IsSigK (groupsFlat A.uids ++ (groupsFlat A.attrs ++ (groupsFlat A.subs ++ []))) :=
    headNot_packets (P := IsUid) (by intro b h h'; cases b <;> first | exact h.elim | exact h'.elim) hu hA
  have hvk := (validateKey_iff secret ((A.packets secret).map KPacket.body)).mpr (arr_seq h)
  have ku := takeUids_run hA hAU A.uids hu (groupsFlat A.uids ++ (groupsFlat A.attrs ++ (groupsFlat A.subs ++ []))).length
    (by rw [List.length_append]; exact le_trans (length_flatten_packets A.uids) (by unfold groupsFlat; omega))
  have ks := takeSubs_run headNot_nil headNot_nil A.subs hs (groupsFlat A.subs ++ []).length
    (by rw [List.length_append]; exact le_trans (length_flatten_packets A.subs) (by unfold groupsFlat; omega))
  have kd := takeSigs_run hd hU
  unfold TKey.fromPackets at hk
  rw [hvk] at hk
  simp only [except_bind_ok, Arr.packets] at hk
  rw [kd] at hk
  have hg : ∀ gs : List PGroup, (gs.map PGroup.packets).flatten = groupsFlat gs := fun _ => rfl
  simp only [hg] at ku ks
  simp only [ku] at hk
  obtain ⟨⟨at', r3⟩, ka, hk⟩ := except_bind_eq_ok.mp hk
  obtain ⟨rfl, hat⟩ := takeAttrs_inv magic hS hSA A.attrs ha _
    (by rw [List.length_append]; exact le_trans (length_flatten_packets A.attrs) (by unfold groupsFlat; omega)) _ _ ka
  simp only [ks] at hk
  cases hk
  refine ⟨⟨⟨rfl, rfl⟩, sigElems_read hd⟩, elems_read (fun g hg => (hu g hg).2) fun g hg => .inl (hu g hg).1, hat,
    elems_read (fun g hg => (hs g hg).2) fun g hg => .inr ?_⟩
  obtain ⟨⟨k, p, e⟩, _⟩ := h.subs g hg
  exact ⟨_, _, k, p, e⟩

/-! ### The object is determined by the packets -/

theorem forall₂_functional {α β : Type} {R : α → β → Prop} (hR : ∀ a b c, R a b → R a c → b = c) : ∀ {l : List α} {x y : List β},
    List.Forall₂ R l x → List.Forall₂ R l y → x = y := by
  intro l x y h
  induction h generalizing y with
  | nil => intro h'; cases h'; rfl
  | cons h1 _ ih => intro h'; cases h' with
    | cons h2 h3 => rw [hR _ _ _ h1 h2, ih h3]

theorem elementOf_functional {magic : Bytes → Str} (p : KPacket) (a b : KElem) (ha : ElementOf magic p a) (hb : ElementOf magic p b) : a = b := by
  obtain ⟨f, body⟩ := p
  obtain ⟨fa, ia⟩ := a
  obtain ⟨fb, ib⟩ := b
  obtain ⟨h1, h2⟩ := ha
  obtain ⟨h3, h4⟩ := hb
  simp only at h1 h3
  subst h1 h3
  cases body with
  | attr as =>
    obtain ⟨i1, e1, h5⟩ := h2
    obtain ⟨i2, e2, h6⟩ := h4
    simp only at e1 e2
    subst e1 e2
    have := forall₂_functional (R := ItemRead magic) (by
      rintro a x y ⟨v, l, f, d, rfl, rfl⟩ ⟨v', l', f', d', e, rfl⟩
      cases e; rfl) h5 h6
    rw [this]
  | trust => exact h2.elim
  | other => exact h2.elim
  | _ => simp only at h2 h4; rw [h2, h4]

theorem partOf_functional {magic : Bytes → Str} (b : Block) (x y : KGroup) (hx : PartOf magic b x) (hy : PartOf magic b y) : x = y :=
  Prod.ext (elementOf_functional _ _ _ hx.1 hy.1) (forall₂_functional elementOf_functional hx.2 hy.2)

theorem read_functional {magic : Bytes → Str} {secret : Bool} {A : Arr} {k k' : TKey} (h : A.Read magic secret k) (h' : A.Read magic secret k') : k = k' := by
  obtain ⟨p, u, a, s⟩ := k
  obtain ⟨p', u', a', s'⟩ := k'
  have h1 := partOf_functional _ _ _ h.primary h'.primary
  have h2 := forall₂_functional (R := fun (g : PGroup) e => PartOf magic g.block e) (fun _ _ _ x y => partOf_functional _ _ _ x y) h.uids h'.uids
  have h3 := forall₂_functional (R := fun (g : PGroup) e => PartOf magic g.block e) (fun _ _ _ x y => partOf_functional _ _ _ x y) h.attrs h'.attrs
  have h4 := forall₂_functional (R := fun (g : PGroup) e => PartOf magic g.block e) (fun _ _ _ x y => partOf_functional _ _ _ x y) h.subs h'.subs
  simp only at h1 h2 h3 h4
  rw [h1, h2, h3, h4]

/-! ### Adding a signature -/

def PGroup.add (q : KPacket) (g : PGroup) : PGroup := ⟨g.lead, g.sigs ++ [q]⟩

def Arr.add (A : Arr) (q : KPacket) : Place → Arr
  | .primary => { A with direct := A.direct ++ [q] }
  | .uid n => { A with uids := A.uids.modify n (PGroup.add q) }
  | .attr n => { A with attrs := A.attrs.modify n (PGroup.add q) }
  | .sub n => { A with subs := A.subs.modify n (PGroup.add q) }

def Arr.lead (secret : Bool) (A : Arr) : Place → Option KBody
  | .primary => some (.key secret false A.key A.priv)
  | .uid n => A.uids[n]?.map (·.lead.body)
  | .attr n => A.attrs[n]?.map (·.lead.body)
  | .sub n => A.subs[n]?.map (·.lead.body)

theorem modify_split {α : Type} : ∀ (l : List α) (n : Nat) (g : α), l[n]? = some g → ∃ a b, l = a ++ g :: b ∧ ∀ f, l.modify n f = a ++ f g :: b := by
  intro l
  induction l with
  | nil => intro n g h; simp at h
  | cons x l ih =>
    intro n g h
    cases n with
    | zero => simp only [List.getElem?_cons_zero, Option.some.injEq] at h; subst h; exact ⟨[], l, rfl, fun f => rfl⟩
    | succ n =>
      obtain ⟨a, b, rfl, h2⟩ := ih n g (by simpa using h)
      exact ⟨x :: a, b, rfl, fun f => by simp [List.modify_succ_cons, h2]⟩

theorem mem_modify {α : Type} {P : α → Prop} {l : List α} {n : Nat} {g : α} {f : α → α} (hg : l[n]? = some g) (hl : ∀ x ∈ l, P x) (hf : P (f g)) :
    ∀ x ∈ l.modify n f, P x := by
  obtain ⟨a, b, e, h⟩ := modify_split l n g hg
  rw [h]
  subst e
  intro x hx
  simp only [List.mem_append, List.mem_cons] at hx
  rcases hx with hx | rfl | hx
  · exact hl x (by simp [hx])
  · exact hf
  · exact hl x (by simp [hx])

theorem flat_modify {gs : List PGroup} {n : Nat} {g : PGroup} (h : gs[n]? = some g) :
    ∃ X Y, groupsFlat gs = X ++ Y ∧ ∀ q, groupsFlat (gs.modify n (PGroup.add q)) = X ++ q :: Y := by
  obtain ⟨a, b, e, h⟩ := modify_split gs n g h
  refine ⟨groupsFlat a ++ g.packets, groupsFlat b, ?_, fun q => ?_⟩
  · subst e
    simp [groupsFlat]
  · rw [h]
    simp [groupsFlat, PGroup.packets, PGroup.add]

theorem arr_add_split {secret : Bool} {A : Arr} {at' : Place} {b : KBody} (h : A.lead secret at' = some b) :
    ∃ X Y, A.packets secret = X ++ Y ∧ ∀ q, (A.add q at').packets secret = X ++ q :: Y := by
  cases at' with
  | primary => exact ⟨⟨A.fmt, .key secret false A.key A.priv⟩ :: A.direct, _, rfl, fun q => by simp [Arr.packets, Arr.add]⟩
  | uid n =>
    simp only [Arr.lead, Option.map_eq_some_iff] at h
    obtain ⟨g, hg, _⟩ := h
    obtain ⟨X, Y, h1, h2⟩ := flat_modify hg
    exact ⟨⟨A.fmt, .key secret false A.key A.priv⟩ :: (A.direct ++ X), Y ++ (groupsFlat A.attrs ++ (groupsFlat A.subs ++ [])),
      by simp [Arr.packets, h1], fun q => by simp [Arr.packets, Arr.add, h2]⟩
  | attr n =>
    simp only [Arr.lead, Option.map_eq_some_iff] at h
    obtain ⟨g, hg, _⟩ := h
    obtain ⟨X, Y, h1, h2⟩ := flat_modify hg
    exact ⟨⟨A.fmt, .key secret false A.key A.priv⟩ :: (A.direct ++ (groupsFlat A.uids ++ X)), Y ++ (groupsFlat A.subs ++ []),
      by simp [Arr.packets, h1], fun q => by simp [Arr.packets, Arr.add, h2]⟩
  | sub n =>
    simp only [Arr.lead, Option.map_eq_some_iff] at h
    obtain ⟨g, hg, _⟩ := h
    obtain ⟨X, Y, h1, h2⟩ := flat_modify hg
    exact ⟨⟨A.fmt, .key secret false A.key A.priv⟩ :: (A.direct ++ (groupsFlat A.uids ++ (groupsFlat A.attrs ++ X))), Y,
      by simp [Arr.packets, h1], fun q => by simp [Arr.packets, Arr.add, h2]⟩

theorem arr_add_ok {secret : Bool} {A : Arr} (hA : A.Ok secret) {at' : Place} {b : KBody} (h : A.lead secret at' = some b) {q : KPacket}
    (hq : SigOf (placeTypes at') q.body) : (A.add q at').Ok secret := by
  cases at' with
  | primary =>
    cases h
    refine ⟨fun p hp => ?_, hA.uids, hA.attrs, hA.subs, hA.version⟩
    rcases List.mem_append.mp hp with hp | hp
    · exact hA.direct p hp
    · rw [List.mem_singleton.mp hp]; exact hq
  | uid n =>
    simp only [Arr.lead, Option.map_eq_some_iff] at h
    obtain ⟨g, hg, rfl⟩ := h
    have hmem : g ∈ A.uids := List.mem_of_getElem? hg
    obtain ⟨h1, h2⟩ := hA.uids g hmem
    refine ⟨hA.direct, mem_modify hg hA.uids ⟨h1, fun p hp => ?_⟩, hA.attrs, hA.subs, hA.version⟩
    rcases List.mem_append.mp hp with hp | hp
    · exact h2 p hp
    · rw [List.mem_singleton.mp hp]; exact hq
  | attr n =>
    simp only [Arr.lead, Option.map_eq_some_iff] at h
    obtain ⟨g, hg, rfl⟩ := h
    have hmem : g ∈ A.attrs := List.mem_of_getElem? hg
    obtain ⟨h1, h2⟩ := hA.attrs g hmem
    refine ⟨hA.direct, hA.uids, mem_modify hg hA.attrs ⟨h1, fun p hp => ?_⟩, hA.subs, hA.version⟩
    rcases List.mem_append.mp hp with hp | hp
    · exact h2 p hp
    · rw [List.mem_singleton.mp hp]; exact hq
  | sub n =>
    simp only [Arr.lead, Option.map_eq_some_iff] at h
    obtain ⟨g, hg, rfl⟩ := h
    have hmem : g ∈ A.subs := List.mem_of_getElem? hg
    obtain ⟨⟨k, priv, h1⟩, h2, h3⟩ := hA.subs g hmem
    refine ⟨hA.direct, hA.uids, hA.attrs, mem_modify hg hA.subs ⟨⟨k, priv, h1⟩, by simp [PGroup.add], fun p hp => ?_⟩, fun hv => ?_⟩
    · rcases List.mem_append.mp hp with hp | hp
      · exact h3 p hp
      · rw [List.mem_singleton.mp hp]; exact hq
    · have := hA.version hv
      rw [this] at hmem
      cases hmem

theorem forall₂_modify {α β : Type} {R : α → β → Prop} {f : α → α} {g : β → β} (hR : ∀ a b, R a b → R (f a) (g b)) :
    ∀ {l : List α} {m : List β} (n : Nat), List.Forall₂ R l m → List.Forall₂ R (l.modify n f) (m.modify n g) := by
  intro l m n h
  induction h generalizing n with
  | nil => cases n <;> exact .nil
  | cons h1 h2 ih => cases n with
    | zero => exact .cons (hR _ _ h1) h2
    | succ n => simp only [List.modify_succ_cons]; exact .cons h1 (ih n)

theorem partOf_add {magic : Bytes → Str} {q : KPacket} {e : KElem} (he : ElementOf magic q e) (g : PGroup) (x : KGroup) (h : PartOf magic g.block x) :
    PartOf magic (g.add q).block (x.1, x.2 ++ [e]) := by
  refine ⟨h.1, ?_⟩
  obtain ⟨_, h2⟩ := h
  have : ∀ {a : List KPacket} {b : List KElem}, List.Forall₂ (ElementOf magic) a b → List.Forall₂ (ElementOf magic) (a ++ [q]) (b ++ [e]) := by
    intro a b h
    induction h with
    | nil => exact .cons he .nil
    | cons h1 _ ih => exact .cons h1 ih
  exact this h2

theorem read_add {magic : Bytes → Str} {secret : Bool} {A : Arr} {k : TKey} (h : A.Read magic secret k) {q : KPacket} {e : KElem}
    (he : ElementOf magic q e) (at' : Place) : (A.add q at').Read magic secret (k.addSignature e at') := by
  cases at' with
  | primary =>
    refine ⟨?_, h.uids, h.attrs, h.subs⟩
    exact partOf_add he ⟨⟨A.fmt, .key secret false A.key A.priv⟩, A.direct⟩ k.primary h.primary
  | uid n => exact ⟨h.primary, forall₂_modify (partOf_add he) n h.uids, h.attrs, h.subs⟩
  | attr n => exact ⟨h.primary, h.uids, forall₂_modify (partOf_add he) n h.attrs, h.subs⟩
  | sub n => exact ⟨h.primary, h.uids, h.attrs, forall₂_modify (partOf_add he) n h.subs⟩

end Pgp
