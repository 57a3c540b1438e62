import Verif.Lemmas.Certify
import Verif.Props.KeyFile
import Verif.Props.SecretFile
import Verif.Props.SignMsg
/-
Property theorems C108 (the signatures of a key belong to the parts they follow) and C109 (a certification made by the library arrives
with the key and verifies).
-/
namespace Pgp.Props
open Spec

/-! ### C108 -/

/-- C108: in a key object made from packets - any accepted sequence without trust packets, public or secret - every part has exactly the
signatures that follow its packet, in order: the packets fall into blocks, each a packet that is not a signature and the signatures up to
the next such packet, and the blocks are, one by one, the primary key, the user ids, the attributes and the subkeys of the object. -/
theorem C108_signatures_attached_partial (magic : Bytes → Str) (secret : Bool) (ps : List KPacket) (hnt : ∀ p ∈ ps, ¬ IsTrust p.body) (k : TKey)
    (hk : TKey.fromPackets magic secret ps = .ok k) :
    (∃ blocks : List Block, ps = (blocks.map Block.packets).flatten ∧
      (∀ b ∈ blocks, b.head.body.type ≠ 2 ∧ ∀ p ∈ b.signatures, p.body.type = 2) ∧
      List.Forall₂ (PartOf magic) blocks (k.primary :: (k.uids ++ k.attrs ++ k.subs))) ∧
    (∀ g ∈ k.uids, ∃ s, g.1.item = .uid s) ∧ (∀ g ∈ k.attrs, ∃ items, g.1.item = .attr items) ∧
    (∃ key priv, k.primary.1.item = .key secret false key priv) ∧ ∀ g ∈ k.subs, ∃ key priv, g.1.item = .key secret true key priv := by
  have hv : validateKey secret (ps.map KPacket.body) = .ok () := by
    unfold TKey.fromPackets at hk
    obtain ⟨u, hu, _⟩ := except_bind_eq_ok.mp hk
    exact hu
  obtain ⟨A, hA, rfl⟩ := arr_of ((validateKey_iff secret _).mp hv) hnt
  have hr := arr_read hA hk
  have sig2 : ∀ {types : List Nat} {b : KBody}, SigOf types b → b.type = 2 := by
    intro types b h
    cases b <;> first | exact h.elim | rfl
  have lead : ∀ {P : KItem → Prop} {gs : List PGroup} {es : List KGroup}, List.Forall₂ (fun g e => PartOf magic (PGroup.block g) e) gs es →
      (∀ g ∈ gs, ∀ e, ElementOf magic g.lead e → P e.item) → ∀ e ∈ es, P e.1.item := by
    intro P gs es h hP
    induction h with
    | nil => simp
    | cons h1 _ ih =>
      intro e he
      rcases List.mem_cons.mp he with rfl | he
      · exact hP _ List.mem_cons_self _ h1.1
      · exact ih (fun g hg => hP g (List.mem_cons_of_mem _ hg)) e he
  refine ⟨⟨⟨⟨A.fmt, .key secret false A.key A.priv⟩, A.direct⟩ :: ((A.uids ++ A.attrs ++ A.subs).map PGroup.block), ?_, ?_, ?_⟩, ?_, ?_, ?_, ?_⟩
  · have hb : ∀ gs : List PGroup, ((gs.map PGroup.block).map Block.packets).flatten = groupsFlat gs := by
      intro gs
      rw [List.map_map]
      rfl
    rw [List.map_cons, List.flatten_cons, List.map_append, List.map_append, List.map_append, List.map_append, List.flatten_append, List.flatten_append, hb, hb, hb]
    simp [Arr.packets, Block.packets]
  · intro b hb
    rcases List.mem_cons.mp hb with rfl | hb
    · exact ⟨by cases secret <;> simp [KBody.type], fun p hp => sig2 (hA.direct p hp)⟩
    · obtain ⟨g, hg, rfl⟩ := List.mem_map.mp hb
      rcases List.mem_append.mp hg with hg | hg
      · rcases List.mem_append.mp hg with hg | hg
        · obtain ⟨h1, h2⟩ := hA.uids g hg
          refine ⟨?_, fun p hp => sig2 (h2 p hp)⟩
          show g.lead.body.type ≠ 2
          cases hb : g.lead.body <;> rw [hb] at h1 <;> first | exact h1.elim | simp [KBody.type]
        · obtain ⟨h1, h2⟩ := hA.attrs g hg
          refine ⟨?_, fun p hp => sig2 (h2 p hp)⟩
          show g.lead.body.type ≠ 2
          cases hb : g.lead.body <;> rw [hb] at h1 <;> first | exact h1.elim | simp [KBody.type]
      · obtain ⟨⟨k', p', h1⟩, _, h2⟩ := hA.subs g hg
        refine ⟨?_, fun p hp => sig2 (h2 p hp)⟩
        show g.lead.body.type ≠ 2
        rw [h1]
        cases secret <;> simp [KBody.type]
  · refine .cons hr.primary ?_
    rw [List.forall₂_map_left_iff]
    exact forall₂_app (forall₂_app hr.uids hr.attrs) hr.subs
  · refine lead (P := fun i => ∃ s, i = .uid s) hr.uids fun g hg e he => ?_
    have h1 := (hA.uids g hg).1
    obtain ⟨_, he⟩ := he
    cases hb : g.lead.body <;> rw [hb] at h1 he <;> first | exact h1.elim | exact ⟨_, he⟩
  · refine lead (P := fun i => ∃ s, i = .attr s) hr.attrs fun g hg e he => ?_
    have h1 := (hA.attrs g hg).1
    obtain ⟨_, he⟩ := he
    cases hb : g.lead.body <;> rw [hb] at h1 he <;> first | exact h1.elim | (obtain ⟨i, he, _⟩ := he; exact ⟨i, he⟩)
  · exact ⟨_, _, hr.primary.1.2⟩
  · refine lead (P := fun i => ∃ key priv, i = .key secret true key priv) hr.subs fun g hg e he => ?_
    obtain ⟨⟨k', p', h1⟩, _⟩ := hA.subs g hg
    obtain ⟨_, he⟩ := he
    rw [h1] at he
    exact ⟨_, _, he⟩

example (magic : Bytes → Str) : ∃ k, TKey.fromPackets magic false exPackets = .ok k ∧ ∃ blocks : List Block,
    exPackets = (blocks.map Block.packets).flatten ∧ List.Forall₂ (PartOf magic) blocks (k.primary :: (k.uids ++ k.attrs ++ k.subs)) := by
  obtain ⟨k, h1, _⟩ := C36_roundtrip_partial magic false exPackets exPackets_ok.1 (exPackets_ok.2 magic)
  obtain ⟨⟨b, h2, _, h3⟩, _⟩ := C108_signatures_attached_partial magic false exPackets (fun p hp ht => by
    have := exPackets_ok.2 magic p hp
    cases hb : p.body <;> rw [hb] at ht this <;> first | exact ht | exact this) k h1
  exact ⟨k, h1, b, h2, h3⟩

/-! ### C109 -/

theorem addSignature_part (k : TKey) (e : KElem) (at' : Place) (g : KGroup) (hg : k.part at' = some g) :
    (k.addSignature e at').part at' = some (g.1, g.2 ++ [e]) ∧ ∀ p, p ≠ at' → (k.addSignature e at').part p = k.part p := by
  cases at' with
  | primary =>
    cases hg
    exact ⟨rfl, fun p hp => by cases p <;> first | rfl | exact absurd rfl hp⟩
  | uid n =>
    refine ⟨?_, fun p hp => ?_⟩
    · simp only [TKey.part] at hg
      simp [TKey.part, TKey.addSignature, hg]
    · cases p with
      | uid m =>
        have : n ≠ m := by rintro rfl; exact hp rfl
        simp [TKey.part, TKey.addSignature, this]
      | _ => rfl
  | attr n =>
    refine ⟨?_, fun p hp => ?_⟩
    · simp only [TKey.part] at hg
      simp [TKey.part, TKey.addSignature, hg]
    · cases p with
      | attr m =>
        have : n ≠ m := by rintro rfl; exact hp rfl
        simp [TKey.part, TKey.addSignature, this]
      | _ => rfl
  | sub n =>
    refine ⟨?_, fun p hp => ?_⟩
    · simp only [TKey.part] at hg
      simp [TKey.part, TKey.addSignature, hg]
    · cases p with
      | sub m =>
        have : n ≠ m := by rintro rfl; exact hp rfl
        simp [TKey.part, TKey.addSignature, this]
      | _ => rfl

theorem rep_mono {magic : Bytes → Str} {F F' : HeaderFormat → Prop} {fl : Nat → Nat} {good : Nat → Prop} {b : Bytes} {ps : List KPacket}
    (h : Rep magic F fl good b ps) (hF : ∀ f, F f → F' f) : Rep magic F' fl good b ps := by
  obtain ⟨rs, es, h1, h2, h3⟩ := h
  exact ⟨rs, es, h1.imp fun r p ⟨a, b, c, d⟩ => ⟨a, b, hF _ c, d⟩, h2, h3⟩

theorem mapM_split {α β : Type} {f : α → Py β} : ∀ {a b : List α} {z : List β}, (a ++ b).mapM f = .ok z → ∃ x y, a.mapM f = .ok x ∧ b.mapM f = .ok y ∧ z = x ++ y := by
  intro a b z h
  rw [List.mapM_append] at h
  obtain ⟨x, hx, h⟩ := except_bind_eq_ok.mp h
  obtain ⟨y, hy, h⟩ := except_bind_eq_ok.mp h
  cases h
  exact ⟨x, y, hx, hy, rfl⟩

theorem rep_insert {magic : Bytes → Str} {F : HeaderFormat → Prop} {fl : Nat → Nat} {good : Nat → Prop} {b q : Bytes} {X Y : List KPacket} {p : KPacket}
    (h : Rep magic F fl good b (X ++ Y)) (hq : Rep magic F fl good q [p]) : ∃ out, Rep magic F fl good out (X ++ p :: Y) := by
  obtain ⟨rs, es, h1, h2, rfl⟩ := h
  have h3 : ∃ r1 r2, rs = r1 ++ r2 ∧ List.Forall₂ (Holds magic F fl good) r1 X ∧ List.Forall₂ (Holds magic F fl good) r2 Y := by
    clear h2
    induction X generalizing rs with
    | nil => exact ⟨[], rs, rfl, .nil, h1⟩
    | cons x X ih =>
      cases h1 with
      | cons hx hr =>
        obtain ⟨r1, r2, rfl, h3, h4⟩ := ih _ hr
        exact ⟨_ :: r1, r2, rfl, .cons hx h3, h4⟩
  obtain ⟨r1, r2, rfl, h3, h4⟩ := h3
  obtain ⟨e1, e2, h5, h6, rfl⟩ := mapM_split h2
  exact ⟨e1.flatten ++ (q ++ e2.flatten), rep_append ⟨r1, e1, h3, h5, rfl⟩ (rep_append (ps := [p]) hq ⟨r2, e2, h4, h6, rfl⟩)⟩

theorem sig_rep {magic : Bytes → Str} {F : HeaderFormat → Prop} {fl : Nat → Nat} {good : Nat → Prop} {f : HeaderFormat} (hf : F f) {sig : Sig}
    (hs : SigOk fl sig) (h4 : SigV4 sig) (hl : ∀ c, sig.content fl = .ok c → 1 ≤ c.length ∧ c.length < 2 ^ 24) :
    ∃ q, Rep magic F fl good q [⟨f, .sig sig⟩] := by
  obtain ⟨c, h1, h2⟩ := sigOk_write hs
  have hex : Expressible ⟨f, 2, c⟩ := by
    obtain ⟨h3, h5⟩ := hl c h1
    cases f with
    | new => exact .inl ⟨rfl, (by decide : 2 < 64), h3, by simp; omega⟩
    | old => exact .inr ⟨rfl, (by decide : 2 < 16), h5⟩
  obtain ⟨es, h3, _⟩ := C10_parse_concat_partial [⟨f, 2, c⟩] (by simpa using hex)
  refine ⟨es.flatten, [⟨f, 2, c⟩], es, .cons ⟨?_, ?_, hf, h4, hex, trivial⟩ .nil, h3, rfl⟩
  · simp only [readPacket, readBody]
    simp [h2]
  · simp only [KPacket.raw, KBody.content, h1, except_bind_ok]
    rfl

theorem certify_rep {magic : Bytes → Str} {F : HeaderFormat → Prop} {fl : Nat → Nat} {good : Nat → Prop} {data : Bytes} {ps : List KPacket} {secret : Bool}
    (h : Rep magic F fl good data ps) (hseq : KeySequence secret (ps.map KPacket.body)) {k : TKey} (hk : readKey magic data = .ok k)
    {at' : Place} {g : KGroup} (hg : k.part at' = some g) {sig : Sig} (hs : SigOk fl sig) (h4 : SigV4 sig) (ht : sig.sigType ∈ placeTypes at')
    (hl : ∀ c, sig.content fl = .ok c → 1 ≤ c.length ∧ c.length < 2 ^ 24) (hf : Option HeaderFormat) (hF : ∀ f, F f → hf.getD f = f) (f : HeaderFormat) :
    ∃ out, (k.addSignature ⟨f, .sig sig⟩ at').octets fl hf = .ok out ∧ readKey magic out = .ok (k.addSignature ⟨hf.getD f, .sig sig⟩ at') := by
  have hmod : ∀ {F : HeaderFormat → Prop} {b : Bytes} {ps : List KPacket}, Rep magic F fl good b ps → ∀ p ∈ ps, Modern magic p.body := by
    rintro F b ps ⟨rs, es, h1, _⟩
    induction h1 generalizing es with
    | nil => simp
    | cons hx hr ih =>
      intro p hp
      rcases List.mem_cons.mp hp with rfl | hp
      · exact hx.2.2.2.1
      · rename_i _ h2
        exact forall₂_mem_right hr p hp |>.elim fun r hr => hr.2.2.2.2.1
  have hnt : ∀ p ∈ ps, ¬ IsTrust p.body := fun p hp ht => by
    have := hmod h p hp
    cases hb : p.body <;> rw [hb] at ht this <;> first | exact ht | exact this
  obtain ⟨A, hA, rfl⟩ := arr_of hseq hnt
  obtain ⟨k0, r1, _, _, r4⟩ := rep_read_full h hseq
  rw [hk] at r1
  cases r1
  have hr := arr_read hA r4
  have hlead : ∃ b, A.lead secret at' = some b := by
    have aux : ∀ {gs : List PGroup} {es : List KGroup} {n : Nat}, List.Forall₂ (fun g e => PartOf magic (PGroup.block g) e) gs es → es[n]? = some g →
        ∃ b, gs[n]?.map (·.lead.body) = some b := by
      intro gs es n h he
      have hlen := h.length_eq
      obtain ⟨hn, _⟩ := List.getElem?_eq_some_iff.mp he
      exact ⟨(gs[n]'(by omega)).lead.body, by rw [List.getElem?_eq_getElem (by omega)]; rfl⟩
    cases at' with
    | primary => exact ⟨_, rfl⟩
    | uid n => exact aux hr.uids hg
    | attr n => exact aux hr.attrs hg
    | sub n => exact aux hr.subs hg
  obtain ⟨b, hlead⟩ := hlead
  obtain ⟨X, Y, hX, hadd⟩ := arr_add_split hlead
  have obj : ∀ f', (∀ p ∈ (A.add ⟨f', .sig sig⟩ at').packets secret, Modern magic p.body) ∧
      (k.addSignature ⟨f', .sig sig⟩ at').toPackets = .ok ((A.add ⟨f', .sig sig⟩ at').packets secret) ∧
      TKey.fromPackets magic secret ((A.add ⟨f', .sig sig⟩ at').packets secret) = .ok (k.addSignature ⟨f', .sig sig⟩ at') := by
    intro f'
    have hok := arr_add_ok (q := ⟨f', .sig sig⟩) hA hlead ht
    have hm : ∀ p ∈ (A.add ⟨f', .sig sig⟩ at').packets secret, Modern magic p.body := by
      intro p hp
      rw [hadd] at hp
      simp only [List.mem_append, List.mem_cons] at hp
      rcases hp with hp | rfl | hp
      · exact hmod h p (by rw [hX]; simp [hp])
      · exact h4
      · exact hmod h p (by rw [hX]; simp [hp])
    obtain ⟨k1, h5, h6⟩ := key_roundtrip magic secret _ (arr_seq hok) hm
    have := read_functional (arr_read hok h5) (read_add hr (q := ⟨f', .sig sig⟩) (e := ⟨f', .sig sig⟩) ⟨rfl, rfl⟩ at')
    subst this
    exact ⟨hm, h6, h5⟩
  have hgg : hf.getD (hf.getD f) = hf.getD f := by cases hf <;> rfl
  obtain ⟨q, hq⟩ := sig_rep (magic := magic) (F := fun f => hf.getD f = f) (good := good) hgg hs h4 hl
  have h' := rep_mono h hF
  rw [hX] at h'
  obtain ⟨out, hout⟩ := rep_insert h' hq
  rw [← hadd] at hout
  obtain ⟨k2, s1, s2, s3, s4⟩ := rep_read_full hout (arr_seq (arr_add_ok (q := ⟨hf.getD f, .sig sig⟩) hA hlead ht))
  rw [(obj _).2.2] at s4
  cases s4
  refine ⟨out, ?_, s1⟩
  have s5 := s3 hf fun f hf' => hf'
  unfold TKey.octets at s5 ⊢
  rw [(obj _).2.1, except_bind_ok] at s5 ⊢
  rw [hadd] at s5 ⊢
  have : List.mapM (KPacket.raw fl hf) (X ++ ⟨f, .sig sig⟩ :: Y) = List.mapM (KPacket.raw fl hf) (X ++ ⟨hf.getD f, .sig sig⟩ :: Y) := by
    rw [List.mapM_append, List.mapM_append, List.mapM_cons, List.mapM_cons]
    have : KPacket.raw fl hf ⟨f, .sig sig⟩ = KPacket.raw fl hf ⟨hf.getD f, .sig sig⟩ := by
      simp only [KPacket.raw, hgg]
    rw [this]
  rw [this]
  exact s5

/-- The octets of a signature made by `sign` are few enough for any packet header. -/
theorem signed_content_length {fl : Nat → Nat} {H : Digest} {K : SignKey} {i : Item} {t h : Nat} {subs : List Sub} {now : Nat} {sig : Sig}
    (hs : signItem fl H K i 4 t h subs now = .ok sig) (hroom : ∀ d values, signHash fl K.prims K.alg h d = .ok values → ∀ n ∈ values, LogRoom fl n)
    (hok : SigOk fl sig) : ∀ c, sig.content fl = .ok c → 1 ≤ c.length ∧ c.length < 2 ^ 24 := by
  obtain ⟨_, _, _, _, a, b, values, hashed, _, _, hh, _, e6, rfl⟩ := sign_shape hs
  intro c hc
  have hval : ∀ e, sigValues fl (values.map some) = .ok e → e.length ≤ 8194 * values.length := fun e => sigValues_length (hroom _ _ e6)
  have hn := signHash_length e6
  generalize hgen : (H h (a ++ b)).take 2 = h2 at *
  have hlen2 : h2.length ≤ 2 := by rw [← hgen, List.length_take]; omega
  generalize hvs : values.map some = vs at *
  cases hok with
  | v4 ht hp hh' hhs hus hhl hul h2' hv' =>
  obtain ⟨e, he1, he2⟩ := hhl
  rw [Sig.content] at hc
  obtain ⟨_, _, hc⟩ := except_bind_eq_ok.mp hc
  obtain ⟨_, _, hc⟩ := except_bind_eq_ok.mp hc
  obtain ⟨_, _, hc⟩ := except_bind_eq_ok.mp hc
  obtain ⟨_, _, hc⟩ := except_bind_eq_ok.mp hc
  obtain ⟨hd', g1, hc⟩ := except_bind_eq_ok.mp hc
  obtain ⟨ud, g2, hc⟩ := except_bind_eq_ok.mp hc
  obtain ⟨vv, g3, hc⟩ := except_bind_eq_ok.mp hc
  rw [he1] at g1; cases g1
  rw [subsBytes] at g2; cases g2
  cases hc
  have := hval _ g3
  simp only [List.length_append, List.length_cons, List.length_nil, intTo2byte_eq, beBytes_length]
  omega

theorem itemAt_add (fl : FloorLog2) (k : TKey) (e : KElem) (at' : Place) (g : KGroup) (hg : k.part at' = some g) :
    (k.addSignature e at').itemAt fl at' = k.itemAt fl at' := by
  have h1 := (addSignature_part k e at' g hg).1
  have h2 : (k.addSignature e at').primary.1 = k.primary.1 := by cases at' <;> rfl
  cases at' <;> simp only [TKey.itemAt, h1, hg, h2]

theorem itemAt_not_raw {fl : FloorLog2} {k : TKey} {at' : Place} {i : Item} (h : k.itemAt fl at' = .ok i) : ∀ b, i ≠ .raw b := by
  rintro b rfl
  unfold TKey.itemAt at h
  cases hp : k.part at' with
  | none => cases at' <;> simp only [hp] at h <;> cases h
  | some g =>
    cases at' with
    | primary =>
      simp only [hp] at h
      obtain ⟨_, _, h⟩ := except_bind_eq_ok.mp h
      cases h
    | uid n =>
      simp only [hp] at h
      obtain ⟨_, _, h⟩ := except_bind_eq_ok.mp h
      obtain ⟨_, _, h⟩ := except_bind_eq_ok.mp h
      cases h
    | attr n =>
      simp only [hp] at h
      obtain ⟨_, _, h⟩ := except_bind_eq_ok.mp h
      obtain ⟨_, _, h⟩ := except_bind_eq_ok.mp h
      cases h
    | sub n =>
      simp only [hp] at h
      obtain ⟨_, _, h⟩ := except_bind_eq_ok.mp h
      obtain ⟨_, _, h⟩ := except_bind_eq_ok.mp h
      simp only [except_pure, Except.ok.injEq] at h
      unfold subkeyItem at h
      split at h <;> cases h

/-- A certifier as the theorems want it: the key's primitives verify what they sign, its id is one, the clock is in range, the further
hashed subpackets can be written, no RSA signature string begins with a zero octet, and the logarithm is precise enough for the values. -/
structure Certifier (fl : Nat → Nat) (H : Digest) (i : Item) (K : SignKey) (t h : Nat) (subs : List Sub) (now : Nat) : Prop where
  prims : PrimsCorrect H h K.prims
  id : K.keyId.length = 16 ∧ UpperHex K.keyId
  time : now < 2 ^ 32
  extra : ∀ s ∈ subs, SubOk fl s
  area : ∀ e, subsBytes fl subs = .ok e → e.length < 60000
  full : K.alg = 1 ∨ K.alg = 3 → FullLength fl H K i t h subs now
  room : ∀ d values, signHash fl K.prims K.alg h d = .ok values → ∀ n ∈ values, LogRoom fl n

theorem certify_of_rep {magic : Bytes → Str} {F : HeaderFormat → Prop} {fl : Nat → Nat} {good : Nat → Prop} {data : Bytes} {ps : List KPacket} {secret : Bool}
    (hrep : Rep magic F fl good data ps) (hseq : KeySequence secret (ps.map KPacket.body)) (hf : Option HeaderFormat) (hF : ∀ f, F f → hf.getD f = f)
    (k : TKey) (hread : readKey magic data = .ok k) (at' : Place) (g : KGroup) (hg : k.part at' = some g) (i : Item) (hi : k.itemAt fl at' = .ok i)
    (H : Digest) (hH : DigestOk H) (K : SignKey) (t h : Nat) (ht : t ∈ placeTypes at') (subs : List Sub) (now : Nat) (hK : Certifier fl H i K t h subs now)
    (sig : Sig) (hs : signItem fl H K i 4 t h subs now = .ok sig) :
    ∃ out k', (k.addSignature ⟨.new, .sig sig⟩ at').octets fl hf = .ok out ∧ readKey magic out = .ok k' ∧
      k'.part at' = some (g.1, g.2 ++ [⟨hf.getD .new, .sig sig⟩]) ∧ (∀ p, p ≠ at' → k'.part p = k.part p) ∧
      ∃ i', k'.itemAt fl at' = .ok i' ∧ verifyItem fl H K i' sig = .ok true := by
  have hok := signed_sigOk hH hs hK.id hK.time hK.extra hK.area hK.room
  have h4 : SigV4 sig ∧ sig.sigType = t := by
    obtain ⟨_, _, _, _, a, b, values, hashed, _, _, _, _, _, rfl⟩ := sign_shape hs
    exact ⟨trivial, rfl⟩
  obtain ⟨out, h1, h2⟩ := certify_rep hrep hseq hread hg hok h4.1 (by rw [h4.2]; exact ht) (signed_content_length hs hK.room hok) hf hF .new
  obtain ⟨h5, h6⟩ := addSignature_part k ⟨hf.getD .new, .sig sig⟩ at' g hg
  exact ⟨out, _, h1, h2, h5, h6, i, by rw [itemAt_add fl k _ at' g hg]; exact hi,
    C28_sign_verify_partial fl H hH K h hK.prims i (itemAt_not_raw hi) t subs now sig hK.full hs⟩

/-- C109 (part that holds): take a public key from its octets, sign any part of it - the key itself, a user id, an attribute or a subkey -
with a signature of a type that belongs there, append the signature to the part, write the key with the header format of the received
packets, and read the octets: the key read has the signature as the last one of that part and is otherwise the same, and the signature
verifies on that part of the key read. -/
theorem C109_certify_public_partial (magic : Bytes → Str) (fl : Nat → Nat) (good : Nat → Prop)
    (hgood : ∀ i, good i → LogRoom fl i ∧ (0 < i → fl i = Nat.log2 i)) (f : HeaderFormat) (data : Bytes) (hdata : PublicKeyFile magic (· = f) good data)
    (k : TKey) (hread : readKey magic data = .ok k) (at' : Place) (g : KGroup) (hg : k.part at' = some g) (i : Item) (hi : k.itemAt fl at' = .ok i)
    (H : Digest) (hH : DigestOk H) (K : SignKey) (t h : Nat) (ht : t ∈ placeTypes at') (subs : List Sub) (now : Nat) (hK : Certifier fl H i K t h subs now)
    (sig : Sig) (hs : signItem fl H K i 4 t h subs now = .ok sig) :
    ∃ out k', serializeKey fl (some f) (k.addSignature ⟨.new, .sig sig⟩ at') = .ok out ∧ readKey magic out = .ok k' ∧
      k'.part at' = some (g.1, g.2 ++ [⟨f, .sig sig⟩]) ∧ (∀ p, p ≠ at' → k'.part p = k.part p) ∧
      ∃ i', k'.itemAt fl at' = .ok i' ∧ verifyItem fl H K i' sig = .ok true := by
  obtain ⟨ps, h1, h2⟩ := file_rep hgood hdata
  exact certify_of_rep h1 h2 (some f) (fun f' hf => by rw [hf]; rfl) k hread at' g hg i hi H hH K t h ht subs now hK sig hs

/-- C109 (part that holds): the same for a secret key, whose parts are signed as those of its public half. -/
theorem C109_certify_secret_partial (magic : Bytes → Str) (fl : Nat → Nat) (hl : LogOnCounts fl) (good : Nat → Prop)
    (hgood : ∀ i, good i → LogRoom fl i ∧ (0 < i → fl i = Nat.log2 i)) (f : HeaderFormat) (data : Bytes) (hdata : SecretKeyFile magic (· = f) good data)
    (k : TKey) (hread : readKey magic data = .ok k) (at' : Place) (g : KGroup) (hg : k.part at' = some g) (i : Item) (hi : k.itemAt fl at' = .ok i)
    (H : Digest) (hH : DigestOk H) (K : SignKey) (t h : Nat) (ht : t ∈ placeTypes at') (subs : List Sub) (now : Nat) (hK : Certifier fl H i K t h subs now)
    (sig : Sig) (hs : signItem fl H K i 4 t h subs now = .ok sig) :
    ∃ out k', serializeKey fl (some f) (k.addSignature ⟨.new, .sig sig⟩ at') = .ok out ∧ readKey magic out = .ok k' ∧
      k'.part at' = some (g.1, g.2 ++ [⟨f, .sig sig⟩]) ∧ (∀ p, p ≠ at' → k'.part p = k.part p) ∧
      ∃ i', k'.itemAt fl at' = .ok i' ∧ verifyItem fl H K i' sig = .ok true := by
  obtain ⟨ps, h1, h2⟩ := secret_file_rep hl hgood hdata
  exact certify_of_rep h1 h2 (some f) (fun f' hf => by rw [hf]; rfl) k hread at' g hg i hi H hH K t h ht subs now hK sig hs

/-! ### What is signed -/

theorem items_forward {magic : Bytes → Str} : ∀ {as : List AttrSub} {items : List (Str × Bytes)}, List.Forall₂ (ItemRead magic) as items →
    as.mapM (attrItem magic) = .ok items := by
  intro as items h
  induction h with
  | nil => rfl
  | cons h1 _ ih =>
    obtain ⟨v, l, f, d, rfl, rfl⟩ := h1
    rw [List.mapM_cons, ih]
    rfl

/-- The octets hashed for an element are the content of its packet. -/
theorem elem_signed {magic : Bytes → Str} {fl : Nat → Nat} {p : KPacket} {e : KElem} (h : ElementOf magic p e) (hm : Modern magic p.body)
    (hpub : ∀ a b k x, p.body = .key a b k x → a = false ∧ x = none) :
    e.signedContent fl = p.body.content fl := by
  obtain ⟨f, b⟩ := p
  obtain ⟨f', it⟩ := e
  obtain ⟨_, h⟩ := h
  cases b with
  | key a b k x =>
    obtain ⟨rfl, rfl⟩ := hpub a b k x rfl
    have hk : k.expirationDays = none := hm
    have : ({ k with expirationDays := none } : PubKey) = k := by cases k; simp only at hk ⊢; rw [hk]
    simp only [this] at h
    subst h
    rfl
  | sig s =>
    simp only at h
    subst h
    cases s with
    | v3 => exact hm.elim
    | v4 => rfl
  | uid s => simp only at h; subst h; rfl
  | attr as =>
    obtain ⟨items, h, hi⟩ := h
    simp only at h
    subst h
    obtain ⟨items', h1, h2⟩ := items_back magic as hm
    rw [items_forward hi] at h1
    cases h1
    simp only [KElem.signedContent, KElem.toPublic, KElem.toPacket, h2]
    rfl
  | trust => exact h.elim
  | other => exact h.elim

theorem filter_groups {t : Nat} : ∀ {gs : List PGroup}, (∀ g ∈ gs, g.lead.body.type = t ∧ ∀ p ∈ g.sigs, p.body.type = 2) → t ≠ 2 →
    (groupsFlat gs).filter (fun p => p.body.type = t) = gs.map PGroup.lead := by
  intro gs
  induction gs with
  | nil => intros; rfl
  | cons g gs ih =>
    intro h ht
    obtain ⟨h1, h2⟩ := h g List.mem_cons_self
    have hf : groupsFlat (g :: gs) = g.lead :: (g.sigs ++ groupsFlat gs) := by simp [groupsFlat, PGroup.packets]
    rw [hf, List.filter_cons_of_pos (by simpa using h1), List.filter_append, ih (fun g hg => h g (List.mem_cons_of_mem _ hg)) ht]
    have : g.sigs.filter (fun p => p.body.type = t) = [] := by
      rw [List.filter_eq_nil_iff]
      intro p hp
      rw [h2 p hp]
      simpa using ht.symm
    rw [this]
    rfl

theorem filter_other {t t' : Nat} {gs : List PGroup} (h : ∀ g ∈ gs, g.lead.body.type = t' ∧ ∀ p ∈ g.sigs, p.body.type = 2) (ht : t ≠ 2) (ht' : t ≠ t') :
    (groupsFlat gs).filter (fun p => p.body.type = t) = [] := by
  rw [List.filter_eq_nil_iff]
  intro p hp
  obtain ⟨l, hl, hp⟩ := List.mem_flatten.mp hp
  obtain ⟨g, hg, rfl⟩ := List.mem_map.mp hl
  rcases List.mem_cons.mp hp with rfl | hp
  · rw [(h g hg).1]; simpa using ht'.symm
  · rw [(h g hg).2 p hp]; simpa using ht.symm

theorem filter_sigs {t : Nat} {l : List KPacket} (h : ∀ p ∈ l, p.body.type = 2) (ht : t ≠ 2) : l.filter (fun p => p.body.type = t) = [] := by
  rw [List.filter_eq_nil_iff]
  intro p hp
  rw [h p hp]; simpa using ht.symm

theorem forall₂_filter_type {magic : Bytes → Str} {F : HeaderFormat → Prop} {fl : Nat → Nat} {good : Nat → Prop} {rs : List RawPacket} {ps : List KPacket}
    (h : List.Forall₂ (Holds magic F fl good) rs ps) (t : Nat) :
    List.Forall₂ (Holds magic F fl good) (rs.filter (·.type = t)) (ps.filter (fun p => p.body.type = t)) := by
  induction h with
  | nil => exact .nil
  | cons hx _ ih =>
    rename_i r p _ _ _
    have : r.type = p.body.type := by
      have := hx.2.1
      unfold KPacket.raw at this
      obtain ⟨c, _, this⟩ := except_bind_eq_ok.mp this
      cases this
      rfl
    by_cases ht : r.type = t
    · rw [List.filter_cons_of_pos (by simpa using ht), List.filter_cons_of_pos (by simpa [← this] using ht)]
      exact .cons hx ih
    · rw [List.filter_cons_of_neg (by simpa using ht), List.filter_cons_of_neg (by simpa [← this] using ht)]
      exact ih

theorem sigOf_type {types : List Nat} {b : KBody} (h : SigOf types b) : b.type = 2 := by
  cases b <;> first | exact h.elim | rfl

theorem forall₂_mem_left {α β : Type} {R : α → β → Prop} {a : List α} {b : List β} (h : List.Forall₂ R a b) : ∀ x ∈ a, ∃ y ∈ b, R x y := by
  induction h with
  | nil => simp
  | cons h1 _ ih =>
    intro x hx
    rcases List.mem_cons.mp hx with rfl | hx
    · exact ⟨_, List.mem_cons_self, h1⟩
    · obtain ⟨y, hy, h⟩ := ih x hx
      exact ⟨y, List.mem_cons_of_mem _ hy, h⟩

/-- A list of parts, a list of packets: the n-th is hashed as the content of the n-th. -/
theorem parts_content {magic : Bytes → Str} {F : HeaderFormat → Prop} {fl : Nat → Nat} {good : Nat → Prop} {rs : List RawPacket} {gs : List PGroup} {es : List KGroup}
    (h : List.Forall₂ (Holds magic F fl good) rs (gs.map PGroup.lead)) (hp : List.Forall₂ (fun g e => PartOf magic (PGroup.block g) e) gs es)
    (hpub : ∀ g ∈ gs, ∀ a b k x, g.lead.body = .key a b k x → a = false ∧ x = none) :
    List.Forall₂ (fun r (e : KGroup) => e.1.signedContent fl = .ok r.content) rs es := by
  induction hp generalizing rs with
  | nil => cases h; exact .nil
  | cons h1 _ ih =>
    cases h with
    | cons h2 h3 =>
      refine .cons ?_ (ih h3 fun g hg => hpub g (List.mem_cons_of_mem _ hg))
      rw [elem_signed h1.1 h2.2.2.2.1 (hpub _ List.mem_cons_self)]
      have := h2.2.1
      unfold KPacket.raw at this
      obtain ⟨c, hc, this⟩ := except_bind_eq_ok.mp this
      cases this
      exact hc

/-- C109: what is hashed for a part of a received public key is the content of its packet, and for all but the key itself also that of the
primary key packet, octet by octet as received: the n-th user id is the n-th user id packet, and likewise for attributes and subkeys. -/
theorem C109_signed_octets_partial (magic : Bytes → Str) (fl : Nat → Nat) (good : Nat → Prop)
    (hgood : ∀ i, good i → LogRoom fl i ∧ (0 < i → fl i = Nat.log2 i)) (F : HeaderFormat → Prop) (data : Bytes) (hdata : PublicKeyFile magic F good data)
    (k : TKey) (hread : readKey magic data = .ok k) :
    ∃ primary rest, parseBinaryPacketData data = .ok (primary :: rest) ∧ k.itemAt fl .primary = .ok (.key primary.content) ∧
      (∀ n, k.itemAt fl (.uid n) = match (rest.filter (·.type = 13))[n]? with
        | some r => .ok (.userId primary.content r.content) | none => .error .indexError) ∧
      (∀ n, k.itemAt fl (.attr n) = match (rest.filter (·.type = 17))[n]? with
        | some r => .ok (.userAttribute primary.content r.content) | none => .error .indexError) ∧
      ∀ n, k.itemAt fl (.sub n) = match (rest.filter (·.type = 14))[n]? with
        | some r => .ok (.subkey primary.content r.content) | none => .error .indexError := by
  obtain ⟨ps, hrep, hseq⟩ := file_rep hgood hdata
  obtain ⟨k0, r1, _, _, r4⟩ := rep_read_full hrep hseq
  rw [hread] at r1
  cases r1
  obtain ⟨rs, es, hh, he, rfl⟩ := hrep
  have hex : ∀ r ∈ rs, Expressible r := fun r hr => (forall₂_mem_left hh r hr).elim fun p hp => hp.2.2.2.2.2.1
  obtain ⟨es', h3, h4⟩ := C10_parse_concat_partial rs hex
  rw [he] at h3
  cases h3
  have hmod : ∀ p ∈ ps, Modern magic p.body := fun p hp => (forall₂_mem_right hh p hp).elim fun r hr => hr.2.2.2.2.1
  have hnone : ∀ p ∈ ps, ∀ b k x, p.body = .key false b k x → x = none := by
    intro p hp b k x hb
    obtain ⟨r, _, hr⟩ := forall₂_mem_right hh p hp
    have ht : r.type = 6 ∨ r.type = 14 := by
      have := hr.2.1
      unfold KPacket.raw at this
      obtain ⟨c, _, this⟩ := except_bind_eq_ok.mp this
      cases this
      rw [hb]
      cases b <;> simp [KBody.type]
    have := hr.1
    unfold readPacket readBody at this
    rw [dif_pos ht] at this
    obtain ⟨b', hb', this⟩ := except_bind_eq_ok.mp this
    cases this
    obtain ⟨_, _, hb'⟩ := except_bind_eq_ok.mp hb'
    cases hb'
    cases hb
    rfl
  have hnt : ∀ p ∈ ps, ¬ IsTrust p.body := fun p hp ht => by
    have := hmod p hp
    cases hb : p.body <;> rw [hb] at ht this <;> first | exact ht | exact this
  obtain ⟨A, hA, rfl⟩ := arr_of hseq hnt
  have hr := arr_read hA r4
  have hu : ∀ g ∈ A.uids, g.lead.body.type = 13 ∧ ∀ p ∈ g.sigs, p.body.type = 2 := fun g hg => by
    obtain ⟨h1, h2⟩ := hA.uids g hg
    refine ⟨?_, fun p hp => sigOf_type (h2 p hp)⟩
    cases hb : g.lead.body <;> rw [hb] at h1 <;> first | exact h1.elim | rfl
  have ha : ∀ g ∈ A.attrs, g.lead.body.type = 17 ∧ ∀ p ∈ g.sigs, p.body.type = 2 := fun g hg => by
    obtain ⟨h1, h2⟩ := hA.attrs g hg
    refine ⟨?_, fun p hp => sigOf_type (h2 p hp)⟩
    cases hb : g.lead.body <;> rw [hb] at h1 <;> first | exact h1.elim | rfl
  have hs : ∀ g ∈ A.subs, g.lead.body.type = 14 ∧ ∀ p ∈ g.sigs, p.body.type = 2 := fun g hg => by
    obtain ⟨⟨k', x, h1⟩, _, h2⟩ := hA.subs g hg
    exact ⟨by rw [h1]; rfl, fun p hp => sigOf_type (h2 p hp)⟩
  have hd : ∀ p ∈ A.direct, p.body.type = 2 := fun p hp => sigOf_type (hA.direct p hp)
  have hpub : ∀ p ∈ A.packets false, ∀ a b k x, p.body = .key a b k x → a = false ∧ x = none := by
    intro p hp a b k' x hb
    have ha : a = false := by
      rcases accepted_packets hseq (List.mem_map_of_mem hp) with ⟨_, _, _, h⟩ | ⟨_, h, _⟩ | ⟨_, h⟩ | ⟨_, h⟩ | ⟨_, h⟩ <;> rw [hb] at h <;> cases h
      rfl
    subst ha
    exact ⟨rfl, hnone p hp b k' x hb⟩
  have hin : ∀ {gs : List PGroup} {g : PGroup}, g ∈ gs → g.lead ∈ groupsFlat gs := fun {gs g} hg =>
    List.mem_flatten.mpr ⟨g.packets, List.mem_map_of_mem hg, List.mem_cons_self⟩
  unfold Arr.packets at hh
  cases hh with
  | cons hp hrest =>
    rename_i primary rest
    have hc0 : k.primary.1.signedContent fl = .ok primary.content := by
      rw [elem_signed hr.primary.1 hp.2.2.2.1 (hpub _ (by simp [Arr.packets]))]
      have := hp.2.1
      unfold KPacket.raw at this
      obtain ⟨c, hc, this⟩ := except_bind_eq_ok.mp this
      cases this
      exact hc
    have f13 := forall₂_filter_type hrest 13
    have f17 := forall₂_filter_type hrest 17
    have f14 := forall₂_filter_type hrest 14
    rw [List.filter_append, List.filter_append, List.filter_append, filter_sigs hd (by decide), filter_groups hu (by decide),
      filter_other ha (by decide) (by decide), List.filter_append, filter_other hs (by decide) (by decide)] at f13
    rw [List.filter_append, List.filter_append, List.filter_append, filter_sigs hd (by decide), filter_other hu (by decide) (by decide),
      filter_groups ha (by decide), List.filter_append, filter_other hs (by decide) (by decide)] at f17
    rw [List.filter_append, List.filter_append, List.filter_append, filter_sigs hd (by decide), filter_other hu (by decide) (by decide),
      filter_other ha (by decide) (by decide), List.filter_append, filter_groups hs (by decide)] at f14
    simp only [List.filter_nil, List.nil_append, List.append_nil] at f13 f17 f14
    have c13 := parts_content f13 hr.uids fun g hg => hpub _ (by simp [Arr.packets, hin hg])
    have c17 := parts_content f17 hr.attrs fun g hg => hpub _ (by simp [Arr.packets, hin hg])
    have c14 := parts_content f14 hr.subs fun g hg => hpub _ (by simp [Arr.packets, hin hg])
    have at_n : ∀ {rs : List RawPacket} {es : List KGroup}, List.Forall₂ (fun r (e : KGroup) => e.1.signedContent fl = .ok r.content) rs es → ∀ n : Nat,
        (∃ (r : RawPacket) (e : KGroup), rs[n]? = some r ∧ es[n]? = some e ∧ e.1.signedContent fl = .ok r.content) ∨ (rs[n]? = none ∧ es[n]? = none) := by
      intro rs es h
      induction h with
      | nil => intro n; exact .inr (by simp)
      | cons h1 _ ih => intro n; cases n with
        | zero => exact .inl ⟨_, _, rfl, rfl, h1⟩
        | succ n => simpa using ih n
    refine ⟨primary, rest, h4, ?_, fun n => ?_, fun n => ?_, fun n => ?_⟩
    · simp only [TKey.itemAt, TKey.part, hc0, except_bind_ok, except_pure]
    · rcases at_n c13 n with ⟨r, e, h1, h2, h3⟩ | ⟨h1, h2⟩
      · simp only [TKey.itemAt, TKey.part, h1, h2, hc0, h3, except_bind_ok, except_pure]
      · simp only [TKey.itemAt, TKey.part, h1, h2]
    · rcases at_n c17 n with ⟨r, e, h1, h2, h3⟩ | ⟨h1, h2⟩
      · simp only [TKey.itemAt, TKey.part, h1, h2, hc0, h3, except_bind_ok, except_pure]
      · simp only [TKey.itemAt, TKey.part, h1, h2]
    · rcases at_n c14 n with ⟨r, e, h1, h2, h3⟩ | ⟨h1, h2⟩
      · have hkey : ∃ sub k' x, e.1.item = .key false sub k' x := by
          have : ∀ {gs : List PGroup} {es : List KGroup}, List.Forall₂ (fun g e => PartOf magic (PGroup.block g) e) gs es →
              (∀ g ∈ gs, ∃ k' x, g.lead.body = .key false true k' x) → ∀ e ∈ es, ∃ sub k' x, e.1.item = .key false sub k' x := by
            intro gs es h
            induction h with
            | nil => simp
            | cons h1 _ ih =>
              intro hg e he
              rcases List.mem_cons.mp he with rfl | he
              · obtain ⟨k', x, hb⟩ := hg _ List.mem_cons_self
                have := h1.1.2
                simp only [PGroup.block, hb] at this
                exact ⟨_, _, _, this⟩
              · exact ih (fun g h => hg g (List.mem_cons_of_mem _ h)) e he
          exact this hr.subs (fun g hg => (hA.subs g hg).1) e (List.mem_of_getElem? h2)
        obtain ⟨sub, k', x, hkey⟩ := hkey
        simp only [TKey.itemAt, TKey.part, h1, h2, hc0, h3, except_bind_ok, except_pure, hkey, subkeyItem]
      · simp only [TKey.itemAt, TKey.part, h1, h2]

theorem exCertifier_ok (i : Item) (t now : Nat) (hn : now < 2 ^ 32) : Certifier Nat.log2 toyHash i exSigner t 2 [] now :=
  ⟨toyPrims_correct, ⟨rfl, by unfold UpperHex; decide⟩, hn, by simp, fun e he => by cases he; decide, (by rintro (h | h) <;> cases h), toy_room⟩

/-- The user id of a received key is certified, the key exported and read. -/
example (magic : Bytes → Str) : ∃ k g sig out k', readKey magic (exFile .old) = .ok k ∧ k.part (.uid 0) = some g ∧
    signItem Nat.log2 toyHash exSigner (.userId exKeyOctets [0x41, 0x6c, 0xc3, 0xa9, 0x21]) 4 0x13 2 [] 1000 = .ok sig ∧
    serializeKey Nat.log2 (some .old) (k.addSignature ⟨.new, .sig sig⟩ (.uid 0)) = .ok out ∧ readKey magic out = .ok k' ∧
      k'.part (.uid 0) = some (g.1, g.2 ++ [⟨.old, .sig sig⟩]) := by
  obtain ⟨k, hk, _⟩ := C83_serialize_key_partial magic Nat.log2 _ exGood .old (exFile .old) (exFile_ok magic .old)
  obtain ⟨p, rest, h1, _, h2, _⟩ := C109_signed_octets_partial magic Nat.log2 _ exGood _ (exFile .old) (exFile_ok magic .old) k hk
  have h3 : parseBinaryPacketData (exFile .old) = .ok [⟨.old, 6, exKeyOctets⟩, ⟨.old, 2, exSigPlain 0x1f⟩, ⟨.old, 13, [0x41, 0x6c, 0xc3, 0xa9, 0x21]⟩,
      ⟨.old, 2, exSigPlain 0x13⟩, ⟨.old, 14, exKeyOctets⟩, ⟨.old, 2, exSigPlain 0x18⟩] := by rfl
  rw [h3] at h1
  cases h1
  have hi : k.itemAt Nat.log2 (.uid 0) = .ok (.userId exKeyOctets [0x41, 0x6c, 0xc3, 0xa9, 0x21]) := h2 0
  cases hg : k.part (.uid 0) with
  | none => simp only [TKey.itemAt, hg] at hi; cases hi
  | some g =>
    have hsig : ∃ sig, signItem Nat.log2 toyHash exSigner (.userId exKeyOctets [0x41, 0x6c, 0xc3, 0xa9, 0x21]) 4 0x13 2 [] 1000 = .ok sig := ⟨_, rfl⟩
    obtain ⟨sig, hsig⟩ := hsig
    obtain ⟨out, k', h4, h5, h6, _⟩ := C109_certify_public_partial magic Nat.log2 _ exGood .old (exFile .old) (exFile_ok magic .old) k hk (.uid 0) g hg _ hi
      toyHash toyHash_ok exSigner 0x13 2 (by decide) [] 1000 (exCertifier_ok _ _ _ (by decide)) sig hsig
    exact ⟨k, g, sig, out, k', hk, hg, hsig, h4, h5, h6⟩

/-! ### The public half of a secret key -/

theorem toPublic_idem (e : KElem) : e.toPublic.toPublic = e.toPublic := by
  obtain ⟨f, it⟩ := e
  cases it <;> rfl

/-- C109 (part that holds): the public half of a secret key - of any key object - has the same octets to sign for the key itself, its user
ids and its attributes, so signatures on them carry over. -/
theorem C109_public_half_partial (fl : FloorLog2) (expires : Nat → Py Unit) (k k' : TKey) (h : k.toPublic expires = .ok k') (at' : Place)
    (hat : ∀ n, at' ≠ .sub n) : k'.itemAt fl at' = k.itemAt fl at' := by
  unfold TKey.toPublic at h
  obtain ⟨_, _, h⟩ := except_bind_eq_ok.mp h
  obtain ⟨_, _, h⟩ := except_bind_eq_ok.mp h
  cases h
  have hp : k.primary.1.toPublic.signedContent fl = k.primary.1.signedContent fl := by
    simp only [KElem.signedContent, toPublic_idem]
  cases at' with
  | primary => simp only [TKey.itemAt, TKey.part, hp]
  | uid n => cases hn : k.uids[n]? <;> simp only [TKey.itemAt, TKey.part, hn, hp]
  | attr n => cases hn : k.attrs[n]? <;> simp only [TKey.itemAt, TKey.part, hn, hp]
  | sub n => exact absurd rfl (hat n)

/-- C109 (refuted): not so for the subkeys. What is hashed for a subkey of a secret key is never what is hashed for the same subkey of its
public half: a binding signature made on the one is a signature on something else for the other. -/
theorem C109_subkey_binding_refuted (fl : FloorLog2) (expires : Nat → Py Unit) (k k' : TKey) (h : k.toPublic expires = .ok k') (n : Nat) (i : Item)
    (hi : k.itemAt fl (.sub n) = .ok i) (hsec : ∃ e ss key priv, k.subs[n]? = some (⟨e, .key true true key priv⟩, ss)) :
    ∃ i' d d', k'.itemAt fl (.sub n) = .ok i' ∧ i.signable 4 = .ok d ∧ i'.signable 4 = .ok d' ∧ d ≠ d' ∧ d'.length < d.length := by
  unfold TKey.toPublic at h
  obtain ⟨_, _, h⟩ := except_bind_eq_ok.mp h
  obtain ⟨_, _, h⟩ := except_bind_eq_ok.mp h
  cases h
  obtain ⟨f, ss, key, priv, hn⟩ := hsec
  have hp : k.primary.1.toPublic.signedContent fl = k.primary.1.signedContent fl := by
    simp only [KElem.signedContent, toPublic_idem]
  simp only [TKey.itemAt, TKey.part, hn] at hi
  obtain ⟨p, h1, hi⟩ := except_bind_eq_ok.mp hi
  obtain ⟨c, h2, hi⟩ := except_bind_eq_ok.mp hi
  cases hi
  have h3 : (KElem.toPublic ⟨f, .key true true key priv⟩).signedContent fl = .ok c := by
    rw [← h2]
    simp only [KElem.signedContent, toPublic_idem]
  refine ⟨.subkey p c, _, _, ?_, rfl, rfl, ?_⟩
  · simp only [TKey.itemAt, TKey.part, List.getElem?_map, hn, Option.map_some, hp, h1, except_bind_ok, h3]
    rfl
  · have hl : 0 < (hashKeyInput p).length := by simp [hashKeyInput]
    have hlt : (hashKeyInput p ++ hashKeyInput c).length < (hashKeyInput p ++ (hashKeyInput p ++ hashKeyInput c)).length := by
      simp only [List.length_append]; omega
    exact ⟨fun he => by rw [he] at hlt; omega, hlt⟩

def exHalf (priv : Option SecPart) : TKey :=
  ⟨(⟨.old, .key true false (mkPubKey 4 1000 1 none (.rsa 3233 17)) priv⟩, []), [(⟨.old, .uid ['A']⟩, [])], [],
    [(⟨.old, .key true true (mkPubKey 4 1001 1 none (.rsa 3233 17)) priv⟩, [])]⟩

example (priv : Option SecPart) := C109_public_half_partial Nat.log2 (fun _ => .ok ()) (exHalf priv) _ rfl (.uid 0) (by intro n h; cases h)

example (priv : Option SecPart) := C109_subkey_binding_refuted Nat.log2 (fun _ => .ok ()) (exHalf priv) _ rfl 0 _ rfl ⟨_, _, _, _, rfl⟩

/-- The primary key of a secret key that was read has octets to sign. -/
theorem primary_item {magic : Bytes → Str} {F : HeaderFormat → Prop} {fl : Nat → Nat} {good : Nat → Prop} {data : Bytes} {ps : List KPacket} {secret : Bool}
    (hrep : Rep magic F fl good data ps) (hseq : KeySequence secret (ps.map KPacket.body)) {k : TKey} (hread : readKey magic data = .ok k) :
    ∃ i, k.itemAt fl .primary = .ok i := by
  obtain ⟨k0, r1, _, _, r4⟩ := rep_read_full hrep hseq
  rw [hread] at r1
  cases r1
  obtain ⟨rs, es, hh, _, rfl⟩ := hrep
  have hmod : ∀ p ∈ ps, Modern magic p.body := fun p hp => (forall₂_mem_right hh p hp).elim fun r hr => hr.2.2.2.2.1
  have hnt : ∀ p ∈ ps, ¬ IsTrust p.body := fun p hp ht => by
    have := hmod p hp
    cases hb : p.body <;> rw [hb] at ht this <;> first | exact ht | exact this
  obtain ⟨A, hA, rfl⟩ := arr_of hseq hnt
  have hr := (arr_read hA r4).primary.1.2
  obtain ⟨r, _, hr'⟩ := forall₂_mem_right hh ⟨A.fmt, .key secret false A.key A.priv⟩ (by simp [Arr.packets])
  obtain ⟨c, hc, _⟩ := hr'.2.2.2.2.2
  have hk : A.key.expirationDays = none := hr'.2.2.2.1
  have hround : ({ A.key with expirationDays := none } : PubKey) = A.key := by
    generalize A.key = key at hk ⊢
    cases key
    simp only at hk ⊢
    rw [hk]
  simp only [hround] at hr
  refine ⟨.key c, ?_⟩
  simp only [TKey.itemAt, TKey.part, KElem.signedContent, KElem.toPublic, hr, KElem.toPacket, KBody.content, hc, except_bind_ok]
  rfl

/-- A direct key signature is added to a secret key. -/
example (magic : Bytes → Str) : ∃ k i, readKey magic (exSecretFile .old) = .ok k ∧ k.itemAt Nat.log2 .primary = .ok i ∧
    ∀ sig, signItem Nat.log2 toyHash exSigner i 4 0x1f 2 [] 1000 = .ok sig →
      ∃ out, serializeKey Nat.log2 (some .old) (k.addSignature ⟨.new, .sig sig⟩ .primary) = .ok out := by
  obtain ⟨ps, h1, h2⟩ := secret_file_rep (magic := magic) (fl := Nat.log2) (fun _ _ _ => rfl) exGood (exSecretFile_ok magic .old)
  obtain ⟨k, hk, _⟩ := rep_read h1 h2
  obtain ⟨i, hi⟩ := primary_item h1 h2 hk
  refine ⟨k, i, hk, hi, fun sig hs => ?_⟩
  obtain ⟨out, _, h3, _⟩ := C109_certify_secret_partial magic Nat.log2 (fun _ _ _ => rfl) _ exGood .old (exSecretFile .old) (exSecretFile_ok magic .old)
    k hk .primary k.primary rfl i hi toyHash toyHash_ok exSigner 0x1f 2 (by decide) [] 1000 (exCertifier_ok _ _ _ (by decide)) sig hs
  exact ⟨out, h3⟩

end Pgp.Props
